import Verif.Spec.Tensor
import Verif.Model.Util
import Verif.Proofs.Sort
/-
Lemmas about indices, row-major order and strides.
-/
namespace Whale

theorem mem_irange {n i : Int} : i ∈ irange n ↔ 0 ≤ i ∧ i < n := by
  unfold irange
  simp only [List.mem_map, List.mem_range]
  constructor
  · rintro ⟨k, hk, rfl⟩; simp only [Int.ofNat_eq_natCast]; omega
  · intro h; exact ⟨i.toNat, by omega, by simp; omega⟩

theorem irange_nonpos {n : Int} (h : n ≤ 0) : irange n = [] := by
  unfold irange; rw [Int.toNat_of_nonpos h]; rfl

@[simp] theorem length_irange (n : Int) : (irange n).length = n.toNat := by simp [irange]

theorem nodup_irange (n : Int) : (irange n).Nodup := by
  unfold irange List.Nodup
  rw [List.pairwise_map]
  exact List.Pairwise.imp (fun h e => h (by simp only [Int.ofNat_eq_natCast] at e; omega)) List.nodup_range

theorem getElem?_irange (n : Int) (k : Nat) : (irange n)[k]? = if k < n.toNat then some (k : Int) else none := by
  unfold irange
  rw [List.getElem?_map]
  by_cases h : k < n.toNat
  · simp [h]
  · simp [h]

@[simp] theorem validIdx_nil_nil : ValidIdx [] [] := trivial
@[simp] theorem validIdx_cons {s i : Int} {ss is : List Int} :
    ValidIdx (s :: ss) (i :: is) ↔ (0 ≤ i ∧ i < s) ∧ ValidIdx ss is := Iff.rfl
@[simp] theorem validIdx_nil_cons {i : Int} {is : List Int} : ¬ ValidIdx [] (i :: is) := fun h => h
@[simp] theorem validIdx_cons_nil {s : Int} {ss : List Int} : ¬ ValidIdx (s :: ss) [] := fun h => h
@[simp] theorem validIdx_nil {idx : List Int} : ValidIdx [] idx ↔ idx = [] := by
  cases idx <;> simp

theorem ValidIdx.length {s idx : List Int} (h : ValidIdx s idx) : idx.length = s.length := by
  induction s generalizing idx with
  | nil => simp at h; simp [h]
  | cons a s ih => cases idx with
    | nil => simp at h
    | cons i is => simp [ih h.2]

@[simp] theorem geti_cons_zero (a : Int) (l : List Int) : geti (a :: l) 0 = a := by simp [geti]
@[simp] theorem geti_cons_succ (a : Int) (l : List Int) (k : Nat) : geti (a :: l) (k + 1) = geti l k := by simp [geti]
@[simp] theorem geti_nil (k : Nat) : geti [] k = 0 := by simp [geti]

theorem geti_of_le {l : List Int} {k : Nat} (h : l.length ≤ k) : geti l k = 0 := by
  unfold geti; simp [List.getD_eq_getElem?_getD, List.getElem?_eq_none h]

theorem geti_eq_getElem {l : List Int} {k : Nat} (h : k < l.length) : geti l k = l[k] := by
  unfold geti; simp [List.getD_eq_getElem?_getD, List.getElem?_eq_getElem h]

theorem geti_map_range (f : Nat → Int) (n k : Nat) (h : k < n) : geti ((List.range n).map f) k = f k := by
  rw [geti_eq_getElem (by simpa using h)]; simp

theorem geti_map {α : Type} [Inhabited α] (f : α → Int) (l : List α) (k : Nat) (h : k < l.length) :
    geti (l.map f) k = f (l.getD k default) := by
  rw [geti_eq_getElem (by simpa using h)]; simp [List.getD_eq_getElem?_getD, List.getElem?_eq_getElem h]

theorem ext_geti {l m : List Int} (hl : l.length = m.length) (h : ∀ k < l.length, geti l k = geti m k) : l = m := by
  apply List.ext_getElem hl
  intro k h1 h2
  have := h k h1
  rwa [geti_eq_getElem h1, geti_eq_getElem h2] at this

theorem geti_set {l : List Int} {k j : Nat} {v : Int} :
    geti (l.set k v) j = if k = j ∧ j < l.length then v else geti l j := by
  induction l generalizing k j with
  | nil => simp
  | cons a l ih => cases k <;> cases j <;> simp [ih]

/-- Pointwise characterisation of valid indices. -/
theorem validIdx_iff {s idx : List Int} :
    ValidIdx s idx ↔ idx.length = s.length ∧ ∀ k < s.length, 0 ≤ geti idx k ∧ geti idx k < geti s k := by
  induction s generalizing idx with
  | nil => simp
  | cons a s ih =>
    cases idx with
    | nil => simp
    | cons i is =>
      simp only [validIdx_cons, ih, List.length_cons, Nat.add_right_cancel_iff]
      constructor
      · rintro ⟨h1, h2, h3⟩
        refine ⟨h2, fun k hk => ?_⟩
        cases k with
        | zero => simpa using h1
        | succ k => simpa using h3 k (by omega)
      · rintro ⟨h1, h2⟩
        refine ⟨by simpa using h2 0 (by omega), h1, fun k hk => by simpa using h2 (k+1) (by omega)⟩

theorem mem_indices {s idx : List Int} : idx ∈ indices s ↔ ValidIdx s idx := by
  induction s generalizing idx with
  | nil => simp [indices]
  | cons a s ih =>
    simp only [indices, List.mem_flatMap, List.mem_map, mem_irange]
    constructor
    · rintro ⟨i, hi, r, hr, rfl⟩; exact ⟨hi, ih.1 hr⟩
    · intro h
      cases idx with
      | nil => simp at h
      | cons i is => exact ⟨i, h.1, is, ih.2 h.2, rfl⟩

theorem nodup_indices (s : List Int) : (indices s).Nodup := by
  induction s with
  | nil => simp [indices]
  | cons a s ih =>
    simp only [indices]
    unfold List.Nodup
    rw [List.pairwise_flatMap]
    refine ⟨fun i _ => ?_, ?_⟩
    · rw [List.pairwise_map]; exact ih.imp (fun h e => h (by simpa using e))
    · refine (nodup_irange a).imp ?_
      intro x y hxy l hl m hm e
      simp only [List.mem_map] at hl hm
      obtain ⟨_, _, rfl⟩ := hl
      obtain ⟨_, _, rfl⟩ := hm
      exact hxy (by simpa using congrArg List.head? e)

@[simp] theorem prod_nil : prod [] = 1 := rfl
@[simp] theorem prod_cons (s : Int) (ss : List Int) : prod (s :: ss) = s * prod ss := rfl

theorem NonNeg.cons {s : Int} {ss : List Int} : NonNeg (s :: ss) ↔ 0 ≤ s ∧ NonNeg ss := by simp [NonNeg]
@[simp] theorem NonNeg.nil : NonNeg [] := by simp [NonNeg]

theorem NonNeg.prod_nonneg {s : List Int} (h : NonNeg s) : 0 ≤ prod s := by
  induction s with
  | nil => simp
  | cons a s ih => rw [NonNeg.cons] at h; exact Int.mul_nonneg h.1 (ih h.2)

theorem ValidIdx.prod_pos {s idx : List Int} (h : ValidIdx s idx) : 0 < prod s := by
  induction s generalizing idx with
  | nil => simp
  | cons a s ih => cases idx with
    | nil => simp at h
    | cons i is => exact Int.mul_pos (by have := h.1; omega) (ih h.2)

theorem ValidIdx.nonNeg {s idx : List Int} (h : ValidIdx s idx) : NonNeg s := by
  induction s generalizing idx with
  | nil => simp
  | cons a s ih => cases idx with
    | nil => simp at h
    | cons i is => rw [NonNeg.cons]; exact ⟨by have := h.1; omega, ih h.2⟩

theorem ravel_bounds {s idx : List Int} (h : ValidIdx s idx) : 0 ≤ ravel s idx ∧ ravel s idx < prod s := by
  induction s generalizing idx with
  | nil => simp at h; subst h; simp [ravel]
  | cons a s ih => cases idx with
    | nil => simp at h
    | cons i is =>
      obtain ⟨⟨h0, h1⟩, h2⟩ := h
      have ⟨ih0, ih1⟩ := ih h2
      simp only [ravel, prod_cons]
      have hp : 0 ≤ prod s := by omega
      constructor
      · have := Int.mul_nonneg h0 hp; omega
      · have : (i + 1) * prod s ≤ a * prod s := Int.mul_le_mul_of_nonneg_right (by omega) hp
        rw [Int.add_mul] at this; omega

theorem unravel_ravel {s idx : List Int} (h : ValidIdx s idx) : unravel s (ravel s idx) = idx := by
  induction s generalizing idx with
  | nil => simp at h; subst h; simp [unravel]
  | cons a s ih => cases idx with
    | nil => simp at h
    | cons i is =>
      obtain ⟨⟨h0, h1⟩, h2⟩ := h
      have ⟨b0, b1⟩ := ravel_bounds h2
      have hp : 0 < prod s := by omega
      have e1 : (i * prod s + ravel s is) / prod s = i := by
        rw [Int.add_comm, Int.add_mul_ediv_right _ _ (by omega), Int.ediv_eq_zero_of_lt b0 b1]; omega
      have e2 : (i * prod s + ravel s is) % prod s = ravel s is := by
        rw [Int.add_comm, Int.add_mul_emod_self_right, Int.emod_eq_of_lt b0 b1]
      simp [unravel, ravel, e1, e2, ih h2]

theorem valid_unravel {s : List Int} {k : Int} (hs : NonNeg s) (h0 : 0 ≤ k) (h1 : k < prod s) :
    ValidIdx s (unravel s k) ∧ ravel s (unravel s k) = k := by
  induction s generalizing k with
  | nil => simp at h1; simp [unravel, ravel]; omega
  | cons a s ih =>
    rw [NonNeg.cons] at hs
    simp only [prod_cons] at h1
    have hp : 0 < prod s := by
      have := hs.2.prod_nonneg
      rcases Int.lt_or_eq_of_le this with h | h
      · exact h
      · rw [← h] at h1; omega
    have ⟨v, r⟩ := ih hs.2 (Int.emod_nonneg k (by omega : prod s ≠ 0)) (Int.emod_lt_of_pos k hp)
    refine ⟨⟨⟨Int.ediv_nonneg h0 (by omega), Int.ediv_lt_of_lt_mul hp (by omega)⟩, v⟩, ?_⟩
    simp only [ravel, unravel, r]
    have := Int.mul_ediv_add_emod k (prod s)
    rw [Int.mul_comm]; exact this

theorem ravel_inj {s i j : List Int} (hi : ValidIdx s i) (hj : ValidIdx s j) (h : ravel s i = ravel s j) : i = j := by
  rw [← unravel_ravel hi, ← unravel_ravel hj, h]

/-- Row-major enumeration: the indices in lexicographic order sit at positions 0, 1, 2, … -/
theorem map_ravel_indices {s : List Int} (h : NonNeg s) : (indices s).map (ravel s) = irange (prod s) := by
  induction s with
  | nil => simp [indices, ravel, irange]
  | cons a s ih =>
    rw [NonNeg.cons] at h
    have ih := ih h.2
    have hp := h.2.prod_nonneg
    simp only [indices, prod_cons, List.map_flatMap, List.map_map]
    have e : ∀ i : Int, (indices s).map (ravel (a :: s) ∘ (i :: ·)) = (irange (prod s)).map (i * prod s + ·) := by
      intro i; rw [← ih]; simp [Function.comp_def, ravel]
    simp only [e]
    obtain ⟨n, rfl⟩ : ∃ n : Nat, a = n := ⟨a.toNat, by omega⟩
    obtain ⟨p, hpp⟩ : ∃ p : Nat, prod s = p := ⟨(prod s).toNat, by omega⟩
    rw [hpp]
    clear e ih
    induction n with
    | zero => simp [irange]
    | succ n ihn =>
      have h1 : irange ((n + 1 : Nat) : Int) = irange n ++ [(n : Int)] := by
        simp [irange, List.range_succ]
      have h2 : irange (((n + 1 : Nat) : Int) * p) = irange ((n : Int) * p) ++ (irange p).map ((n : Int) * p + ·) := by
        have : ((n + 1 : Nat) : Int) * p = ((n * p + p : Nat) : Int) := by
          push_cast; rw [Int.add_mul]; simp
        rw [this]
        have : (n : Int) * p = ((n * p : Nat) : Int) := by push_cast; rfl
        rw [this]
        unfold irange
        rw [Int.toNat_natCast, Int.toNat_natCast, Int.toNat_natCast, List.range_add, List.map_append, List.map_map, List.map_map]
        congr 1
      rw [h1, h2, List.flatMap_append, ihn ⟨by omega, h.2⟩]
      simp

theorem length_indices {s : List Int} (h : NonNeg s) : (indices s).length = (prod s).toNat := by
  have := congrArg List.length (map_ravel_indices h)
  simpa using this

theorem indices_getElem?_ravel {s idx : List Int} (h : ValidIdx s idx) :
    (indices s)[(ravel s idx).toNat]? = some idx := by
  have hs := h.nonNeg
  have ⟨b0, b1⟩ := ravel_bounds h
  have hlen := length_indices hs
  have hk : (ravel s idx).toNat < (indices s).length := by omega
  rw [List.getElem?_eq_getElem hk]
  congr 1
  have hv : ValidIdx s ((indices s)[(ravel s idx).toNat]) := mem_indices.1 (List.getElem_mem hk)
  apply ravel_inj hv h
  have e := congrArg (fun l => l[(ravel s idx).toNat]?) (map_ravel_indices hs)
  simp only [List.getElem?_map, List.getElem?_eq_getElem hk, getElem?_irange, Option.map_some] at e
  rw [if_pos (by omega)] at e
  simp only [Option.some.injEq] at e
  omega

theorem flatten_getElem? {V : Type} {t : Tensor V} {idx : List Int} (h : ValidIdx t.shape idx) :
    t.flatten[(ravel t.shape idx).toNat]? = some (t.get idx) := by
  unfold Tensor.flatten; rw [List.getElem?_map, indices_getElem?_ravel h]; rfl

theorem length_flatten {V : Type} {t : Tensor V} (h : NonNeg t.shape) : t.flatten.length = (prod t.shape).toNat := by
  unfold Tensor.flatten; rw [List.length_map, length_indices h]

/-- Strides of a shape with one more leading dimension. -/
theorem stridesFromShape_cons (s : Int) (ss : List Int) :
    stridesFromShape (s :: ss) = prod ss :: stridesFromShape ss := by
  unfold stridesFromShape
  simp [List.range_succ_eq_map, Function.comp_def]

@[simp] theorem stridesFromShape_nil : stridesFromShape [] = [] := rfl

@[simp] theorem length_stridesFromShape (s : List Int) : (stridesFromShape s).length = s.length := by
  simp [stridesFromShape]

theorem dot_strides {s idx : List Int} (h : idx.length = s.length) : dot idx (stridesFromShape s) = ravel s idx := by
  induction s generalizing idx with
  | nil => cases idx <;> simp_all [dot, ravel]
  | cons a s ih => cases idx with
    | nil => simp at h
    | cons i is => rw [stridesFromShape_cons]; simp [dot, ravel, ih (by simpa using h)]

theorem Tensor.Equiv.refl {V : Type} (t : Tensor V) : t.Equiv t := ⟨rfl, fun _ _ => rfl⟩
theorem Tensor.Equiv.symm {V : Type} {t u : Tensor V} (h : t.Equiv u) : u.Equiv t :=
  ⟨h.1.symm, fun idx hi => (h.2 idx (h.1 ▸ hi)).symm⟩
theorem Tensor.Equiv.trans {V : Type} {t u w : Tensor V} (h : t.Equiv u) (k : u.Equiv w) : t.Equiv w :=
  ⟨h.1.trans k.1, fun idx hi => (h.2 idx hi).trans (k.2 idx (h.1 ▸ hi))⟩

theorem Tensor.Equiv.flatten {V : Type} {t u : Tensor V} (h : t.Equiv u) : t.flatten = u.flatten := by
  unfold Tensor.flatten
  rw [h.1]
  apply List.map_congr_left
  intro idx hi
  exact h.2 idx (h.1 ▸ mem_indices.1 hi)

theorem toNestedAux_congr {V : Type} {s : List Int} {f g : List Int → V}
    (h : ∀ idx, ValidIdx s idx → f idx = g idx) : Tensor.toNestedAux s f = Tensor.toNestedAux s g := by
  induction s generalizing f g with
  | nil => simp [Tensor.toNestedAux, h [] trivial]
  | cons a s ih =>
    simp only [Tensor.toNestedAux, Nested.node.injEq]
    apply List.map_congr_left
    intro i hi
    exact ih (fun idx hv => h (i :: idx) ⟨mem_irange.1 hi, hv⟩)

theorem Tensor.Equiv.toNested {V : Type} {t u : Tensor V} (h : t.Equiv u) : t.toNested = u.toNested := by
  unfold Tensor.toNested
  rw [← h.1]
  exact toNestedAux_congr h.2

end Whale
