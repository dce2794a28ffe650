import Verif.Proofs.Congr
import Verif.Spec.Adjoint
import Mathlib.Algebra.BigOperators.Ring.Finset
import Mathlib.Algebra.BigOperators.Group.Finset.Sigma
/-
The linear operations and their gradient rules as (transposed) 0/1 matrices.
-/
namespace Whale
open Classical
variable {V : Type} [CommRing V]

/-- The valid indices of a shape as a finite set. -/
noncomputable def idxs (s : List Int) : Finset (List Int) := (indices s).toFinset

theorem mem_idxs {s i : List Int} : i ∈ idxs s ↔ ValidIdx s i := by simp [idxs, mem_indices]

theorem sum_indices (s : List Int) (f : List Int → V) : ((indices s).map f).sum = ∑ i ∈ idxs s, f i := (List.sum_toFinset f (nodup_indices s)).symm

theorem inner_eq (T U : Tensor V) : T.inner U = ∑ i ∈ idxs T.shape, T.get i * U.get i := sum_indices _ _

/-- `F` (from shape `sx` to shape `st`) and `B` (back) are given by a 0/1 matrix and its transpose. -/
structure LinRel (sx st : List Int) (F B : Tensor V → Tensor V) (R : List Int → List Int → Prop) : Prop where
  fwd : ∀ X, X.shape = sx → ∀ i, ValidIdx st i → (F X).get i = ∑ j ∈ idxs sx, if R i j then X.get j else 0
  bwd : ∀ G, G.shape = st → ∀ j, ValidIdx sx j → (B G).get j = ∑ i ∈ idxs st, if R i j then G.get i else 0

theorem gather {s : List Int} {k : List Int} (hk : ValidIdx s k) (f : List Int → V) {P : List Int → Prop} (h : ∀ j, ValidIdx s j → (P j ↔ j = k)) :
    f k = ∑ j ∈ idxs s, if P j then f j else 0 := by
  rw [Finset.sum_congr rfl (g := fun j => if j = k then f j else 0) fun j hj => by
    have := h j (mem_idxs.1 hj)
    by_cases e : j = k
    · rw [if_pos (this.2 e), if_pos e]
    · rw [if_neg fun hp => e (this.1 hp), if_neg e]]
  rw [Finset.sum_ite_eq', if_pos (mem_idxs.2 hk)]

theorem none_sum {s : List Int} (f : List Int → V) {P : List Int → Prop} (h : ∀ j, ValidIdx s j → ¬ P j) : (0 : V) = ∑ j ∈ idxs s, if P j then f j else 0 := by
  rw [Finset.sum_congr rfl (g := fun _ => (0 : V)) fun j hj => if_neg (h j (mem_idxs.1 hj))]
  simp

theorem foldl_sum {A : Scalar V} (hA : RingScalar A) (l : List (List Int)) (f : List Int → V) (a : V) : l.foldl (fun acc i => A.bin .Add acc (f i)) a = a + (l.map f).sum := by
  induction l generalizing a with
  | nil => simp
  | cons i l ih => rw [List.foldl_cons, ih, hA.add, List.map_cons, List.sum_cons, add_assoc]

theorem filter_sum {A : Scalar V} (hA : RingScalar A) (s : List Int) (f : List Int → V) (P : List Int → Prop) (d : DecidablePred P) :
    ((indices s).filter (fun i => @decide (P i) (d i))).foldl (fun acc i => A.bin .Add acc (f i)) (A.ofInt 0) = ∑ i ∈ idxs s, @ite _ (P i) (propDecidable _) (f i) 0 := by
  rw [foldl_sum hA, hA.zero, zero_add, ← sum_indices s fun i => @ite _ (P i) (propDecidable _) (f i) 0]
  induction indices s with
  | nil => rfl
  | cons i l ih =>
    rw [List.filter_cons]
    by_cases h : P i
    · simp only [h, decide_true, if_true, List.map_cons, List.sum_cons, ih]
    · simp only [h, decide_false, List.map_cons, List.sum_cons, if_false, zero_add]; exact ih

/-- Matrix and transpose are adjoint. -/
theorem LinRel.adjoint {sx st : List Int} {F B : Tensor V → Tensor V} {R : List Int → List Int → Prop} (h : LinRel sx st F B R) {X G : Tensor V} (hX : X.shape = sx)
    (hG : G.shape = st) : ∑ i ∈ idxs st, G.get i * (F X).get i = ∑ j ∈ idxs sx, (B G).get j * X.get j := by
  rw [Finset.sum_congr rfl fun i hi => by rw [h.fwd X hX i (mem_idxs.1 hi), Finset.mul_sum],
    Finset.sum_congr (s₁ := idxs sx) rfl fun j hj => by rw [h.bwd G hG j (mem_idxs.1 hj), Finset.sum_mul], Finset.sum_comm]
  refine Finset.sum_congr rfl fun j _ => Finset.sum_congr rfl fun i _ => ?_
  split <;> simp

/-- The linear operations as functions of the meaning of their input. -/
def linF (A : Scalar V) : Ctx → Tensor V → Tensor V
  | .sum _ axis kd, X => X.sum A axis kd
  | .reshape _ s, X => X.reshape s
  | .broadcast _ s, X => X.broadcastTo s
  | .slice _ subs, X => X.slice subs
  | .transpose _ axes, X => X.transpose axes
  | .pad _ dim b a, X => X.pad A dim.toNat b a
  | .dilate _ dim st, X => X.dilate A dim.toNat st
  | _, X => X

/-- Their gradient rules. -/
def linB (A : Scalar V) (sx : List Int) : Ctx → Tensor V → Tensor V
  | .sum _ axis kd, G => ⟨sx, fun j => G.get (Tensor.sumProj axis kd j)⟩
  | .reshape _ _, G => G.reshape sx
  | .broadcast _ _, G => bcastVjp A sx G
  | .slice _ subs, G => sliceVjp A sx subs G
  | .transpose _ axes, G => ⟨sx, fun j => G.get (axes.map (geti j))⟩
  | .pad _ dim before _, G => ⟨sx, fun j => G.get (j.set dim.toNat (before + geti j dim.toNat))⟩
  | .dilate _ dim step, G => ⟨sx, fun j => G.get (j.set dim.toNat (geti j dim.toNat * step))⟩
  | _, G => G

theorem den_lin (A : Scalar V) {g : Graph V} (h : WF g) {t x : Nat} (ht : t < g.length) (hl : LinearIn x (g.ctx t)) : den A g t = linF A (g.ctx t) (den A g x) := by
  rw [den_eq A h ht]
  unfold denStep denCtx
  rw [show (g.nd t).ctx = g.ctx t from rfl]
  cases hc : g.ctx t <;> rw [hc] at hl <;> first | exact hl.elim | (cases hl; rfl)

theorem vjp_lin (A : Scalar V) {g : Graph V} {t x : Nat} (hl : LinearIn x (g.ctx t)) (G : Tensor V) : (g.ctx t).inputs = [x] ∧ nodeVjp A g t G = [linB A (g.shape x) (g.ctx t) G] := by
  unfold nodeVjp
  cases hc : g.ctx t <;> rw [hc] at hl <;> first | exact hl.elim | (cases hl; exact ⟨rfl, rfl⟩)

theorem perm_inv {axes : List Nat} {s i j : List Int} (h : axes.Perm (List.range s.length)) (hi : i.length = axes.length) (hj : j.length = s.length) :
    permIdx axes i = j ↔ i = axes.map (geti j) := by
  have hl := perm_range_length h
  constructor
  · rintro rfl
    apply ext_geti (by simpa using hi)
    intro k hk
    have hka : k < axes.length := by omega
    have hm : axes[k] < axes.length := by rw [hl]; exact perm_range_lt h (List.getElem_mem _)
    rw [geti_eq_getElem (l := axes.map _) (by simpa using hka), List.getElem_map]
    unfold permIdx
    rw [geti_map_range _ _ _ hm, (perm_range_nodup h).idxOf_getElem k hka]
  · rintro rfl
    apply ext_geti (by simp [permIdx, hl, hj])
    intro k hk
    have hka : k < axes.length := by simpa [permIdx] using hk
    unfold permIdx
    rw [geti_map_range _ _ _ hka]
    have hm := perm_range_mem h (k := k) (by omega)
    rw [geti_eq_getElem (by simpa using List.idxOf_lt_length_of_mem hm), List.getElem_map, getElem_idxOf' hm]

theorem set_inv {i j : List Int} {d : Nat} {v u : Int} (hd : d < i.length) (h1 : geti i d = v) : i.set d u = j → i = j.set d v := by
  rintro rfl
  rw [List.set_set]
  apply ext_geti (by simp)
  intro k _
  rw [geti_set]
  split
  · rename_i hk; rw [← hk.1, h1]
  · rfl

/-- Every linear operation that has a correct gradient rule is a 0/1 matrix, and the rule is the transposed matrix. -/
theorem lin_rel {A : Scalar V} (hA : RingScalar A) {g : Graph V} (h : WF g) (hnn : NN g) {t x : Nat} (ht : t < g.length) (hgn : GradNode g t) (hl : LinearIn x (g.ctx t)) :
    ∃ R, LinRel (g.shape x) (g.shape t) (linF A (g.ctx t)) (linB A (g.shape x) (g.ctx t)) R := by
  have hok := h t ht
  unfold NodeOK at hok
  unfold GradNode at hgn
  have hctx : (g.nd t).ctx = g.ctx t := rfl
  cases hcx : g.ctx t <;> rw [hcx] at hl <;> first | exact hl.elim | skip
  case sum y axis kd =>
    cases hl
    rw [hctx, hcx] at hok
    obtain ⟨hx, _, e⟩ := hok
    have hst : g.shape t = Tensor.sumShape axis kd (g.shape x) := (node_shape e).trans rfl
    refine ⟨fun i j => Tensor.sumProj axis kd j = i, fun X hX i hi => ?_, fun G hG j hj => ?_⟩
    · simp only [linF, Tensor.sum]; rw [hX]
      exact filter_sum hA _ X.get (fun j => Tensor.sumProj axis kd j = i) _
    · simp only [linB]
      exact gather (by rw [hst]; exact valid_sumProj hj) _ fun i _ => eq_comm
  case reshape y s =>
    cases hl
    rw [hctx, hcx] at hok
    obtain ⟨hx, hp, hs1, hs2, _, e⟩ := hok
    have hst : g.shape t = s := (node_shape e).trans rfl
    refine ⟨fun i j => ravel s i = ravel (g.shape x) j, fun X hX i hi => ?_, fun G hG j hj => ?_⟩
    · simp only [linF, Tensor.reshape]; rw [hX]
      rw [hst] at hi
      have hb := ravel_bounds hi
      have hu := valid_unravel hs2 hb.1 (by omega)
      refine gather hu.1 _ fun j hj => ⟨fun e => ?_, fun e => ?_⟩
      · rw [e, unravel_ravel hj]
      · rw [e, hu.2]
    · simp only [linB, Tensor.reshape]; rw [hG, hst]
      have hb := ravel_bounds hj
      have hu := valid_unravel hs1 hb.1 (by omega)
      refine gather hu.1 _ fun i hi => ⟨fun e => ?_, fun e => ?_⟩
      · rw [← e, unravel_ravel hi]
      · rw [e, hu.2]
  case broadcast y s =>
    cases hl
    rw [hctx, hcx] at hok
    obtain ⟨hx, hb, e⟩ := hok
    have hst : g.shape t = s := (node_shape e).trans rfl
    refine ⟨fun i j => bcastIdx (g.shape x) (i.drop (s.length - (g.shape x).length)) = j, fun X hX i hi => ?_, fun G hG j hj => ?_⟩
    · simp only [linF, Tensor.broadcastTo]; rw [hX]
      rw [hst] at hi
      exact gather (valid_bcastIdx hb hi) X.get fun j _ => eq_comm
    · simp only [linB, bcastVjp]; rw [hG, hst]
      exact filter_sum hA _ G.get (fun i => bcastIdx (g.shape x) (i.drop (s.length - (g.shape x).length)) = j) _
  case slice y subs =>
    cases hl
    rw [hctx, hcx] at hok
    obtain ⟨hx, hso, e⟩ := hok
    have hst : g.shape t = Tensor.sliceShape subs := (node_shape e).trans (sliceLayout_shape (by rw [h.strides_length (by omega), hso.length]))
    refine ⟨fun i j => Tensor.sliceIdx subs i = j, fun X hX i hi => ?_, fun G hG j hj => ?_⟩
    · simp only [linF, Tensor.slice]
      rw [hst] at hi
      exact gather (valid_sliceIdx hso hi) _ fun j _ => eq_comm
    · simp only [linB, sliceVjp]; rw [hst]
      cases hu : unslice subs j with
      | none =>
        simp only [scatter, hA.zero]
        refine none_sum _ fun i hi he => ?_
        have := (unslice_iff hso hj.length).2 ⟨hi, he⟩
        rw [hu] at this; cases this
      | some i0 =>
        simp only [scatter, List.nil_append]
        have h0 := (unslice_iff hso hj.length).1 hu
        refine gather h0.1 _ fun i hi => ⟨fun he => ?_, fun he => by rw [he]; exact h0.2⟩
        have := (unslice_iff hso hj.length).2 ⟨hi, he⟩
        rw [hu] at this; cases this; rfl
  case transpose y axes =>
    cases hl
    rw [hctx, hcx] at hok
    obtain ⟨hx, hp, e⟩ := hok
    have hst : g.shape t = axes.map (geti (g.shape x)) := (node_shape e).trans rfl
    refine ⟨fun i j => permIdx axes i = j, fun X hX i hi => ?_, fun G hG j hj => ?_⟩
    · rw [hst] at hi
      exact gather (valid_permIdx hp hi) X.get fun j _ => eq_comm
    · simp only [linB]
      refine gather (by rw [hst]; exact valid_perm_back hp hj) _ fun i hi => ?_
      rw [hst] at hi
      exact perm_inv hp (by simpa using hi.length) hj.length
  case contiguous y =>
    cases hl
    rw [hctx, hcx] at hok
    obtain ⟨hx, e⟩ := hok
    have hst : g.shape t = g.shape x := (node_shape e).trans rfl
    rw [hst]
    exact ⟨fun i j => i = j, fun X hX i hi => gather hi X.get fun j _ => eq_comm, fun G hG j hj => gather hj G.get fun i _ => Iff.rfl⟩
  case pad y dim b c =>
    cases hl
    rw [hctx, hcx] at hok
    obtain ⟨hx, hd, e⟩ := hok
    rw [hcx] at hgn
    have hst : g.shape t = (g.shape x).set dim.toNat (geti (g.shape x) dim.toNat + (b + c)) := (node_shape e).trans rfl
    have hdl : dim.toNat < (g.shape x).length := by have := hd.2; simp only [Graph.ndim] at this; omega
    refine ⟨fun i j => i = j.set dim.toNat (b + geti j dim.toNat), fun X hX i hi => ?_, fun G hG j hj => ?_⟩
    · simp only [linF, Tensor.pad]; rw [hX]
      rw [hst] at hi
      have hil : i.length = (g.shape x).length := by simpa using hi.length
      split
      · rename_i hc
        refine gather (validIdx_set hdl hi rfl (by omega) (by omega)) _ fun j hj => ⟨?_, fun he => ?_⟩
        · rintro rfl
          have hjl := hj.length
          rw [geti_set, if_pos ⟨rfl, by omega⟩, List.set_set]
          apply ext_geti (by simp)
          intro k _
          rw [geti_set]
          split
          · rename_i hk; rw [← hk.1]; omega
          · rfl
        · have := set_inv (by omega) rfl he.symm
          rw [he, geti_set, if_pos ⟨rfl, by omega⟩, List.set_set]
          apply ext_geti (by simp)
          intro k _
          rw [geti_set]
          split
          · rename_i hk; rw [← hk.1]; omega
          · rfl
      · rename_i hc
        rw [hA.zero]
        refine none_sum _ fun j hj he => hc ?_
        have hjl := hj.length
        have := valid_geti hj hdl
        rw [he, geti_set, if_pos ⟨rfl, by omega⟩]
        omega
    · simp only [linB]
      exact gather (by rw [hst]; exact valid_pad_back hdl hgn.1 hgn.2 hj) _ fun i _ => Iff.rfl
  case dilate y dim st =>
    cases hl
    rw [hctx, hcx] at hok
    obtain ⟨hx, hd, h1, e⟩ := hok
    have hst : g.shape t = (g.shape x).set dim.toNat ((geti (g.shape x) dim.toNat - 1) * st + 1) := (node_shape e).trans rfl
    have hdl : dim.toNat < (g.shape x).length := by have := hd.2; simp only [Graph.ndim] at this; omega
    refine ⟨fun i j => i = j.set dim.toNat (geti j dim.toNat * st), fun X hX i hi => ?_, fun G hG j hj => ?_⟩
    · simp only [linF, Tensor.dilate]
      rw [hst] at hi
      have hil : i.length = (g.shape x).length := by simpa using hi.length
      have hib := valid_geti hi (d := dim.toNat) (by simpa using hdl)
      rw [geti_set, if_pos ⟨rfl, hdl⟩] at hib
      split
      · rename_i hc
        have hdv : geti i dim.toNat / st * st = geti i dim.toNat := Int.ediv_mul_cancel (Int.dvd_of_emod_eq_zero hc)
        refine gather (validIdx_set hdl hi rfl (Int.ediv_nonneg hib.1 (by omega)) (dilate_bound h1 hib.2)) _ fun j hj => ⟨?_, fun he => ?_⟩
        · rintro rfl
          have hjl := hj.length
          rw [geti_set, if_pos ⟨rfl, by omega⟩, List.set_set, Int.mul_ediv_cancel _ (by omega)]
          apply ext_geti (by simp)
          intro k _
          rw [geti_set]
          split
          · rename_i hk; rw [← hk.1]
          · rfl
        · rw [he, geti_set, if_pos ⟨rfl, by omega⟩, List.set_set, hdv]
          apply ext_geti (by simp)
          intro k _
          rw [geti_set]
          split
          · rename_i hk; rw [← hk.1]
          · rfl
      · rename_i hc
        rw [hA.zero]
        refine none_sum _ fun j hj he => hc ?_
        have hjl := hj.length
        rw [he, geti_set, if_pos ⟨rfl, by omega⟩]
        exact Int.mul_emod_left _ _
    · simp only [linB]
      exact gather (by rw [hst]; exact valid_dilate_back hdl h1 hj) _ fun i _ => Iff.rfl

end Whale
