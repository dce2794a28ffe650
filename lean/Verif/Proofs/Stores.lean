import Verif.Proofs.KernelCpu
/-
The effect of a kernel's stores on the output buffer.
-/
namespace Whale
open Algo Codegen Kern
variable {V : Type}

theorem applyWrites_length (ws : List (Int × V)) (buf : List V) : (applyWrites buf ws).length = buf.length := by
  unfold applyWrites
  induction ws generalizing buf with
  | nil => rfl
  | cons w ws ih => rw [List.foldl_cons, ih]; simp

theorem applyWrites_other {ws : List (Int × V)} {k : Nat} (h : ∀ w ∈ ws, w.1.toNat ≠ k) (buf : List V) : (applyWrites buf ws)[k]? = buf[k]? := by
  unfold applyWrites
  induction ws generalizing buf with
  | nil => rfl
  | cons w ws ih =>
    rw [List.foldl_cons, ih (fun x hx => h x (by simp [hx])), List.getElem?_set_ne (h w (by simp))]

theorem applyWrites_get {ws : List (Int × V)} (hn : (ws.map (fun w => w.1.toNat)).Nodup) {w : Int × V} (hw : w ∈ ws) {buf : List V}
    (hb : w.1.toNat < buf.length) : (applyWrites buf ws)[w.1.toNat]? = some w.2 := by
  induction ws generalizing buf with
  | nil => cases hw
  | cons x ws ih =>
    rw [List.map_cons, List.nodup_cons] at hn
    have hstep : applyWrites buf (x :: ws) = applyWrites (buf.set x.1.toNat x.2) ws := rfl
    rw [hstep]
    rcases List.mem_cons.1 hw with rfl | hw
    · rw [applyWrites_other (fun y hy e => hn.1 (List.mem_map.2 ⟨y, hy, e⟩))]
      rw [List.getElem?_set_self hb]
    · exact ih hn.2 hw (by simpa using hb)

theorem storesOf_addr {A : Scalar V} {g : Graph V} {a : Nat} (h : NonNeg (g.shape a)) :
    (storesOf A g a).map (·.1) = irange (prod (g.shape a)) := by
  rw [← map_ravel_indices h]
  simp [storesOf, Function.comp_def]

theorem stores_nodup {A : Scalar V} {g : Graph V} {a : Nat} : ((storesOf A g a).map (·.1)).Nodup := by
  simp only [storesOf, List.map_map, Function.comp_def]
  unfold List.Nodup
  rw [List.pairwise_map]
  refine (nodup_indices (g.shape a)).imp_of_mem ?_
  intro i j hi hj hne e
  exact hne (ravel_inj (mem_indices.1 hi) (mem_indices.1 hj) e)

/-- Any order of the stores leaves the same buffer: the elements of the array in row-major order. -/
theorem applyWrites_stores {A : Scalar V} {g : Graph V} {a : Nat} (hwf : WF g) (ha : a < g.length) (h : NonNeg (g.shape a)) {ws : List (Int × V)} (hp : ws.Perm (storesOf A g a))
    {buf : List V} (hb : (buf.length : Int) = prod (g.shape a)) : applyWrites buf ws = (den A g a).flatten := by
  have hsh : (den A g a).shape = g.shape a := den_shape A hwf ha
  have hval : ∀ w ∈ storesOf A g a, 0 ≤ w.1 := by
    intro w hw
    simp only [storesOf, List.mem_map] at hw
    obtain ⟨idx, hi, rfl⟩ := hw
    exact (ravel_bounds (mem_indices.1 hi)).1
  have hnd : (ws.map (fun w => w.1.toNat)).Nodup := by
    have h1 : ((storesOf A g a).map (fun w => w.1.toNat)).Nodup := by
      have := stores_nodup (A := A) (g := g) (a := a)
      unfold List.Nodup at this ⊢
      rw [List.pairwise_map] at this ⊢
      refine this.imp_of_mem ?_
      intro x y hx hy hne e
      have := hval x hx
      have := hval y hy
      omega
    exact (hp.map _).nodup_iff.2 h1
  have hlen : (den A g a).flatten.length = buf.length := by
    rw [length_flatten (by rw [hsh]; exact h), hsh]; omega
  apply List.ext_getElem?
  intro k
  by_cases hk : k < buf.length
  · have hv := valid_unravel (s := g.shape a) (k := (k : Int)) h (by omega) (by omega)
    have hmem : (ravel (g.shape a) (unravel (g.shape a) k), (den A g a).get (unravel (g.shape a) k)) ∈ ws := by
      rw [hp.mem_iff]
      exact List.mem_map.2 ⟨_, mem_indices.2 hv.1, rfl⟩
    have h1 := applyWrites_get hnd hmem (buf := buf) (by rw [hv.2]; omega)
    have h2 := flatten_getElem? (t := den A g a) (idx := unravel (g.shape a) k) (by rw [hsh]; exact hv.1)
    rw [hsh] at h2
    rw [hv.2] at h1 h2
    simp only [Int.toNat_natCast] at h1 h2
    rw [h1, h2]
  · rw [List.getElem?_eq_none (by rw [applyWrites_length]; omega), List.getElem?_eq_none (by omega)]

end Whale
