import Verif.Proofs.Api
import Verif.Spec.Vjp
/-
The index maps of the movement operations send valid output indices to valid input indices.
-/
namespace Whale
variable {V : Type}

/-! broadcast -/
theorem validIdx_drop {t idx : List Int} (n : Nat) (h : ValidIdx t idx) : ValidIdx (t.drop n) (idx.drop n) := by
  induction n generalizing t idx with
  | zero => simpa using h
  | succ n ih => cases t with
    | nil => simp at h; subst h; simp
    | cons a t => cases idx with
      | nil => simp at h
      | cons i is => simpa using ih h.2

theorem valid_bcastIdx_aux {s t idx : List Int} (h : bcastOK s t) (hv : ValidIdx t idx) : ValidIdx s (bcastIdx s idx) := by
  induction s generalizing t idx with
  | nil => simp [bcastIdx]
  | cons a s ih => cases t with
    | nil => simp [bcastOK] at h
    | cons b t => cases idx with
      | nil => simp at hv
      | cons i is =>
        simp only [bcastIdx, List.zipWith_cons_cons, validIdx_cons]
        refine ⟨?_, ih h.2 hv.2⟩
        have h1 := h.1
        have h2 := hv.1
        split <;> omega

theorem valid_bcastIdx {s t idx : List Int} (h : BroadcastsTo s t) (hv : ValidIdx t idx) :
    ValidIdx s (bcastIdx s (idx.drop (t.length - s.length))) :=
  valid_bcastIdx_aux h.2 (validIdx_drop _ hv)

/-! slicing -/
theorem sliceLen_le {a b c k size : Int} (hc : 0 < c) (_hb : b ≤ size) (h0 : 0 ≤ k) (h1 : k < Tensor.sliceLen a b c) :
    a + k * c < b := by
  unfold Tensor.sliceLen at h1
  have h2 : k < (b - a + c - 1) / c := by omega
  have h3 : k + 1 ≤ (b - a + c - 1) / c := by omega
  have h4 := (Int.le_ediv_iff_mul_le hc).1 h3
  rw [Int.add_mul] at h4
  omega

theorem valid_sliceIdx {s idx : List Int} {subs : List Sub} (h : SubsOK s subs) (hv : ValidIdx (Tensor.sliceShape subs) idx) :
    ValidIdx s (Tensor.sliceIdx subs idx) := by
  induction s generalizing subs idx with
  | nil => cases subs with
    | nil => simp [Tensor.sliceIdx]
    | cons b r => cases b <;> simp [SubsOK] at h
  | cons n s ih => cases subs with
    | nil => simp [SubsOK] at h
    | cons b r => cases b with
      | int i => exact ⟨h.1, ih h.2 hv⟩
      | slice a b c =>
        cases idx with
        | nil => simp [Tensor.sliceShape] at hv
        | cons k idx =>
          simp only [Tensor.sliceShape, validIdx_cons] at hv
          have hh := h.1
          have hlt := sliceLen_le (size := n) hh.2.2 hh.2.1.2 hv.1.1 hv.1.2
          have h5 : 0 ≤ k * c := Int.mul_nonneg hv.1.1 (by omega)
          simp only [Tensor.sliceIdx]
          exact ⟨⟨by omega, by omega⟩, ih h.2 hv.2⟩

/-! transpose -/
def permIdx (axes : List Nat) (idx : List Int) : List Int :=
  (List.range axes.length).map fun k => geti idx (axes.idxOf k)

theorem perm_range_mem {axes : List Nat} {n : Nat} (h : axes.Perm (List.range n)) {k : Nat} (hk : k < n) : k ∈ axes :=
  h.mem_iff.2 (by simpa using hk)

theorem perm_range_nodup {axes : List Nat} {n : Nat} (h : axes.Perm (List.range n)) : axes.Nodup :=
  h.nodup_iff.2 List.nodup_range

theorem perm_range_length {axes : List Nat} {n : Nat} (h : axes.Perm (List.range n)) : axes.length = n := by
  simpa using h.length_eq

theorem perm_range_lt {axes : List Nat} {n : Nat} (h : axes.Perm (List.range n)) {k : Nat} (hk : k ∈ axes) : k < n := by
  simpa using h.mem_iff.1 hk

theorem getElem_idxOf' {axes : List Nat} {k : Nat} (h : k ∈ axes) : axes[axes.idxOf k]'(List.idxOf_lt_length_of_mem h) = k := by
  exact List.getElem_idxOf (List.idxOf_lt_length_of_mem h)

theorem valid_permIdx {axes : List Nat} {s idx : List Int} (h : axes.Perm (List.range s.length))
    (hv : ValidIdx (axes.map (geti s)) idx) : ValidIdx s (permIdx axes idx) := by
  have hl := perm_range_length h
  rw [validIdx_iff] at hv ⊢
  simp only [List.length_map] at hv
  refine ⟨by simp [permIdx, hl], fun k hk => ?_⟩
  unfold permIdx
  rw [geti_map_range _ _ _ (by omega)]
  have hm := perm_range_mem h hk
  have hi := List.idxOf_lt_length_of_mem hm
  have := hv.2 _ hi
  rw [geti_eq_getElem (l := axes.map (geti s)) (by simpa using hi), List.getElem_map, getElem_idxOf' hm] at this
  exact this

/-! pad, dilate -/
theorem validIdx_set {s idx : List Int} {d : Nat} {m n i : Int} (hd : d < s.length) (hv : ValidIdx (s.set d m) idx)
    (hn : geti s d = n) (h0 : 0 ≤ i) (h1 : i < n) : ValidIdx s (idx.set d i) := by
  rw [validIdx_iff] at hv ⊢
  simp only [List.length_set] at hv ⊢
  refine ⟨hv.1, fun k hk => ?_⟩
  have := hv.2 k hk
  rw [geti_set] at this ⊢
  by_cases hkd : d = k
  · subst hkd
    rw [if_pos ⟨rfl, by omega⟩]; omega
  · rw [if_neg (by omega)] at this ⊢
    exact this

theorem dilate_bound {n st i : Int} (hst : 1 ≤ st) (h1 : i < (n - 1) * st + 1) : i / st < n := by
  apply Int.ediv_lt_of_lt_mul (by omega)
  have : (n - 1) * st = n * st - st := by rw [Int.sub_mul]; omega
  omega

end Whale
