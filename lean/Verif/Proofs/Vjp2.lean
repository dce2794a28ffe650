import Verif.Proofs.Vjp
import Verif.Proofs.ReduceIdx
/-
The gradient rules of sum, broadcast, reshape, transpose, pad and dilate.
-/
namespace Whale
open Bwd
variable {V : Type}

/-! ### sum -/

/-- Masked dimensions replaced by `v`. -/
def maskSet (v : Int) (m : List Bool) (s : List Int) : List Int := List.zipWith (fun b d => if b then v else d) m s

@[simp] theorem maskSet_cons (v : Int) (b : Bool) (m : List Bool) (d : Int) (s : List Int) :
    maskSet v (b :: m) (d :: s) = (if b then v else d) :: maskSet v m s := rfl
@[simp] theorem maskSet_nil (v : Int) (s : List Int) : maskSet v [] s = [] := rfl

theorem zipIdx_map_mask (v : Int) (axis : List Nat) (s : List Int) (k : Nat) :
    (s.zipIdx k).map (fun p => if p.2 ∈ axis then v else p.1) = maskSet v (axisMask axis k s.length) s := by
  induction s generalizing k with
  | nil => rfl
  | cons d s ih =>
    simp only [List.zipIdx_cons, List.map_cons, List.length_cons, axisMask_succ, maskSet_cons, ih]
    by_cases h : k ∈ axis <;> simp [h]

theorem sumShape_true (axis : List Nat) (s : List Int) : Tensor.sumShape axis true s = maskSet 1 (axisMask axis 0 s.length) s := by
  simp [Tensor.sumShape, zipIdx_map_mask]
theorem sumShape_false (axis : List Nat) (s : List Int) : Tensor.sumShape axis false s = spat (axisMask axis 0 s.length) s := by
  simp only [Tensor.sumShape, Bool.false_eq_true, if_false]; exact zipIdx_filter_spat axis s 0
theorem sumProj_true (axis : List Nat) (s : List Int) : Tensor.sumProj axis true s = maskSet 0 (axisMask axis 0 s.length) s := by
  simp [Tensor.sumProj, zipIdx_map_mask]
theorem sumProj_false (axis : List Nat) (s : List Int) : Tensor.sumProj axis false s = spat (axisMask axis 0 s.length) s := by
  simp only [Tensor.sumProj, Bool.false_eq_true, if_false]; exact zipIdx_filter_spat axis s 0

theorem geti_maskSet {v : Int} {m : List Bool} {s : List Int} (h : m.length = s.length) (k : Nat) (hk : k < s.length) :
    geti (maskSet v m s) k = if m.getD k false then v else geti s k := by
  induction m generalizing s k with
  | nil => simp at h; simp [← h] at hk
  | cons b m ih => cases s with
    | nil => simp at hk
    | cons d s =>
      cases k with
      | zero => cases b <;> simp [geti]
      | succ k =>
        have := ih (s := s) (by simpa using h) k (by simpa using hk)
        simpa [geti] using this

theorem length_maskSet {v : Int} {m : List Bool} {s : List Int} (h : m.length = s.length) : (maskSet v m s).length = s.length := by
  simp [maskSet, h]

theorem axisMask_getD (axis : List Nat) (n k : Nat) (h : k < n) : (axisMask axis 0 n).getD k false = decide (k ∈ axis) := by
  simp [axisMask, List.getD_eq_getElem?_getD, h]

theorem keepShape_geti (s : List Int) (axis : List Nat) (k : Nat) (hk : k < s.length) :
    (keepShape s axis).length = s.length ∧ geti (keepShape s axis) k = if k ∈ axis then 1 else geti s k := by
  unfold keepShape
  induction axis generalizing s with
  | nil => simp
  | cons a axis ih =>
    have := ih (s.set a 1) (by simpa using hk)
    simp only [List.foldl_cons, List.mem_cons]
    refine ⟨by rw [this.1]; simp, ?_⟩
    rw [this.2, geti_set]
    by_cases h1 : k ∈ axis
    · simp [h1]
    · by_cases h2 : k = a
      · subst h2; simp [h1, hk]
      · simp [h1, h2, Ne.symm h2]

theorem keepShape_length (s : List Int) (axis : List Nat) : (keepShape s axis).length = s.length := by
  unfold keepShape
  induction axis generalizing s with
  | nil => rfl
  | cons a axis ih => simp [ih]

theorem keepShape_eq (s : List Int) (axis : List Nat) : keepShape s axis = maskSet 1 (axisMask axis 0 s.length) s := by
  apply ext_geti (by rw [keepShape_length, length_maskSet (by simp)])
  intro k hk
  rw [keepShape_length] at hk
  rw [(keepShape_geti s axis k hk).2, geti_maskSet (by simp) k hk, axisMask_getD _ _ _ hk]
  by_cases h : k ∈ axis <;> simp [h]

theorem prod_maskSet {m : List Bool} {s : List Int} (h : m.length = s.length) : prod (maskSet 1 m s) = prod (spat m s) := by
  induction m generalizing s with
  | nil => simp at h; simp [← h, maskSet, spat]
  | cons b m ih => cases s with
    | nil => simp at h
    | cons d s => cases b <;> simp [spat, prod, ih (s := s) (by simpa using h)]

theorem bcastOK_maskSet {m : List Bool} {s : List Int} (h : m.length = s.length) : bcastOK (maskSet 1 m s) s := by
  induction m generalizing s with
  | nil => cases s with
    | nil => simp [maskSet, bcastOK]
    | cons d s => simp at h
  | cons b m ih => cases s with
    | nil => simp at h
    | cons d s => refine ⟨?_, ih (by simpa using h)⟩; cases b <;> simp

theorem broadcastsTo_of_bcastOK {s t : List Int} (h : bcastOK s t) : BroadcastsTo s t := by
  have := h.length
  exact ⟨by omega, by simpa [this] using h⟩

theorem bcastIdx_maskSet {m : List Bool} {s j : List Int} (h : m.length = s.length) (hj : ValidIdx s j) :
    bcastIdx (maskSet 1 m s) j = maskSet 0 m j := by
  induction m generalizing s j with
  | nil => simp [bcastIdx, maskSet]
  | cons b m ih => cases s with
    | nil => simp at h
    | cons d s => cases j with
      | nil => simp at hj
      | cons i j =>
        have := ih (s := s) (by simpa using h) hj.2
        have hi := hj.1
        simp only [bcastIdx] at this
        cases b
        · by_cases hd : d = 1
          · subst hd; simp [bcastIdx, maskSet_cons, this]; omega
          · simp [bcastIdx, maskSet_cons, this, hd]
        · simp [bcastIdx, maskSet_cons, this]

theorem ravel_maskSet {m : List Bool} {s j : List Int} (h : m.length = s.length) (hj : j.length = s.length) :
    ravel (maskSet 1 m s) (maskSet 0 m j) = ravel (spat m s) (spat m j) := by
  induction m generalizing s j with
  | nil => simp [maskSet, spat, ravel]
  | cons b m ih => cases s with
    | nil => simp at h
    | cons d s => cases j with
      | nil => simp at hj
      | cons i j =>
        have := ih (s := s) (j := j) (by simpa using h) (by simpa using hj)
        cases b <;> simp [spat, ravel, this, prod_maskSet (m := m) (s := s) (by simpa using h)]

theorem valid_spat {m : List Bool} {s j : List Int} (h : m.length = s.length) (hj : ValidIdx s j) : ValidIdx (spat m s) (spat m j) := by
  induction m generalizing s j with
  | nil => simp [spat]
  | cons b m ih => cases s with
    | nil => simp at h
    | cons d s => cases j with
      | nil => simp at hj
      | cons i j =>
        have := ih (s := s) (j := j) (by simpa using h) hj.2
        cases b
        · exact ⟨hj.1, this⟩
        · exact this

theorem valid_maskSet {m : List Bool} {s j : List Int} (h : m.length = s.length) (hj : ValidIdx s j) : ValidIdx (maskSet 1 m s) (maskSet 0 m j) := by
  rw [← bcastIdx_maskSet h hj]
  exact valid_bcastIdx_aux (bcastOK_maskSet h) hj

theorem valid_sumProj {axis : List Nat} {kd : Bool} {s j : List Int} (hj : ValidIdx s j) : ValidIdx (Tensor.sumShape axis kd s) (Tensor.sumProj axis kd j) := by
  cases kd with
  | true => rw [sumShape_true, sumProj_true, hj.length]; exact valid_maskSet (by simp) hj
  | false => rw [sumShape_false, sumProj_false, hj.length]; exact valid_spat (by simp) hj

theorem maskSet_nn {m : List Bool} {s : List Int} (h : NonNeg s) : NonNeg (maskSet 1 m s) := by
  intro x hx
  unfold maskSet at hx
  rw [List.mem_iff_getElem] at hx
  obtain ⟨k, hk, rfl⟩ := hx
  simp only [List.getElem_zipWith]
  split
  · omega
  · exact h _ (List.getElem_mem _)

theorem sumRule_ok (A : Scalar V) {g : Graph V} (h : WF g) (hnn : NN g) {x gr : Nat} {axis : List Nat} {kd : Bool}
    (hx : x < g.length) (hg : gr < g.length) (hsg : g.shape gr = Tensor.sumShape axis kd (g.shape x)) :
    ∃ ys g', sumRule g x axis kd gr = .ok (ys, g') ∧
      RuleRes A g g' [x] ys [⟨g.shape x, fun j => (den A g gr).get (Tensor.sumProj axis kd j)⟩] := by
  cases kd with
  | true =>
    rw [sumShape_true] at hsg
    obtain ⟨m, d⟩ := broadcast_s h hnn hg (s := g.shape x) (by rw [hsg]; exact broadcastsTo_of_bcastOK (bcastOK_maskSet (by simp))) (hnn x hx).1
    refine ⟨[(ND.broadcastTo g gr (g.shape x)).1], (ND.broadcastTo g gr (g.shape x)).2, rfl, .one m rfl ?_⟩
    rw [d A]
    refine ⟨rfl, fun j hj => ?_⟩
    have hj' : ValidIdx (g.shape x) j := hj
    have e := bcastIdx_maskSet (m := axisMask axis 0 (g.shape x).length) (by simp) hj'
    simp only [Tensor.broadcastTo, den_shape A h hg, hsg, length_maskSet (v := 1) (m := axisMask axis 0 (g.shape x).length) (s := g.shape x) (by simp),
      Nat.sub_self, List.drop_zero]
    rw [sumProj_true, hj'.length, ← e]; rfl
  | false =>
    rw [sumShape_false] at hsg
    obtain ⟨c, g1, e1, m1, d1⟩ := reshape_s h hnn hg (s := keepShape (g.shape x) axis)
      (by rw [keepShape_eq, hsg]; exact prod_maskSet (by simp)) (by rw [keepShape_eq]; exact maskSet_nn (hnn x hx).1)
    have o := m1.old hx
    obtain ⟨m, d⟩ := broadcast_s m1.wf m1.nn m1.lt (s := g.shape x)
      (by rw [m1.shape, keepShape_eq]; exact broadcastsTo_of_bcastOK (bcastOK_maskSet (by simp))) (hnn x hx).1
    refine ⟨[(ND.broadcastTo g1 c (g.shape x)).1], (ND.broadcastTo g1 c (g.shape x)).2, ?_, .one (m1.trans m) rfl ?_⟩
    · simp only [sumRule, Bool.false_eq_true, if_false, e1, bind, Except.bind, o.2.1]; rfl
    · rw [d A]
      refine ⟨rfl, fun j hj => ?_⟩
      have hj' : ValidIdx (g.shape x) j := hj
      have hm : (axisMask axis 0 (g.shape x).length).length = (g.shape x).length := by simp
      have e := bcastIdx_maskSet hm hj'
      simp only [Tensor.broadcastTo, den_shape A m1.wf m1.lt, m1.shape, keepShape_eq, length_maskSet hm, Nat.sub_self, List.drop_zero]
      show (den A g1 c).get (bcastIdx _ j) = _
      rw [e, d1 A]
      simp only [Tensor.reshape, keepShape_eq]
      rw [ravel_maskSet hm hj'.length, den_shape A h hg, hsg, unravel_ravel (valid_spat hm hj'), sumProj_false, hj'.length]

/-! ### reshape -/

theorem reshapeRule_ok (A : Scalar V) {g : Graph V} (h : WF g) (hnn : NN g) {x gr : Nat} (hx : x < g.length) (hg : gr < g.length)
    (hp : prod (g.shape gr) = prod (g.shape x)) :
    ∃ y g', ND.reshape g gr (g.shape x) = .ok (y, g') ∧ RuleRes A g g' [x] [y] [(den A g gr).reshape (g.shape x)] := by
  obtain ⟨y, g', e, m, d⟩ := reshape_s h hnn hg hp.symm (hnn x hx).1
  exact ⟨y, g', e, .one m rfl (.of_eq (d A))⟩

/-! ### transpose -/

theorem pySort_range {l : List Int} {n : Nat} (h : l.Perm ((List.range n).map Int.ofNat)) : l.pySort = (List.range n).map Int.ofNat := by
  have h1 : l.pySort.Perm ((List.range n).map Int.ofNat) := (List.pySort_perm l _).trans h
  have h2 : l.pySort.Pairwise (fun a b => decide (a ≤ b) = true) := List.pairwise_pySort (by simp; omega) (by simp; omega) l
  have h3 : ((List.range n).map Int.ofNat).Pairwise (fun a b => decide (a ≤ b) = true) := by
    rw [List.pairwise_map]
    exact List.pairwise_le_range.imp (by intro a b hab; simpa using hab)
  exact List.Perm.eq_of_pairwise (by intro a b _ _ h1 h2; simp at h1 h2; omega) h2 h3 h1

theorem argsort_perm_range {axes : List Nat} {n : Nat} (h : axes.Perm (List.range n)) : (argsort axes).Perm (List.range n) := by
  unfold argsort
  rw [perm_range_length h]
  exact List.pySort_perm _ _

theorem argsort_idxOf {axes : List Nat} {n : Nat} (h : axes.Perm (List.range n)) {k : Nat} (hk : k < n) : (argsort axes).idxOf k = axes.getD k 0 := by
  have hl := perm_range_length h
  have hr := argsort_perm_range h
  have hkl : axes.getD k 0 < n := by
    rw [List.getD_eq_getElem?_getD, List.getElem?_eq_getElem (by omega)]
    exact perm_range_lt h (List.getElem_mem _)
  have hlen : (argsort axes).length = n := perm_range_length hr
  have e : (argsort axes)[axes.getD k 0]'(by omega) = k := by
    simp only [argsort_perm h, List.getElem_map, List.getElem_range]
    rw [List.getD_eq_getElem?_getD, List.getElem?_eq_getElem (by omega)]
    exact (perm_range_nodup h).idxOf_getElem _ _
  have := (perm_range_nodup hr).idxOf_getElem (axes.getD k 0) (by omega)
  rw [e] at this
  exact this

theorem transposeRule_ok (A : Scalar V) {g : Graph V} (h : WF g) (hnn : NN g) {x gr : Nat} {axes : List Nat} (hx : x < g.length) (hg : gr < g.length)
    (hp : axes.Perm (List.range (g.ndim x))) (hsg : g.shape gr = axes.map (geti (g.shape x))) :
    ∃ y g', ND.transpose g gr ((argsort axes).map Int.ofNat) = .ok (y, g') ∧
      RuleRes A g g' [x] [y] [⟨g.shape x, fun j => (den A g gr).get (axes.map (geti j))⟩] := by
  have hl := perm_range_length hp
  have hnd : g.ndim gr = g.ndim x := by rw [Graph.ndim, hsg, List.length_map, hl]
  have har := argsort_perm_range hp
  have hms : ((argsort axes).map Int.ofNat).pySort = (List.range (g.ndim gr)).map Int.ofNat := by
    rw [hnd]; exact pySort_range (har.map _)
  obtain ⟨y, g', e, m, d⟩ := transpose_s h hnn hg hms
  have hmap : ((argsort axes).map Int.ofNat).map Int.toNat = argsort axes := by simp [List.map_map, Function.comp_def]
  rw [hmap] at m d
  have hshape : (argsort axes).map (geti (g.shape gr)) = g.shape x := by
    have hlen : (argsort axes).length = g.ndim x := perm_range_length har
    apply ext_geti (by simpa [Graph.ndim] using hlen)
    intro k hk
    have hk' : k < g.ndim x := by simpa [hlen] using hk
    rw [argsort_perm hp, List.map_map, geti_map_range _ _ _ hk', Function.comp, hsg]
    have hm := perm_range_mem hp hk'
    rw [geti_eq_getElem (by simpa using List.idxOf_lt_length_of_mem hm), List.getElem_map, getElem_idxOf' hm]
  rw [hshape] at m
  refine ⟨y, g', e, .one m rfl ?_⟩
  rw [d A]
  refine ⟨by simp only [Tensor.transpose]; rw [den_shape A h hg]; exact hshape, fun j hj => ?_⟩
  simp only [Tensor.transpose]
  congr 1
  have hlen : (argsort axes).length = g.ndim x := perm_range_length har
  apply ext_geti (by simp [hlen, hl])
  intro k hk
  have hk' : k < g.ndim x := by simpa [hlen] using hk
  have e1 : geti (axes.map (geti j)) k = geti j (axes.getD k 0) := by
    rw [geti_eq_getElem (by simpa [hl] using hk'), List.getElem_map, List.getD_eq_getElem?_getD, List.getElem?_eq_getElem (by omega)]
    rfl
  rw [hlen, geti_map_range _ _ _ hk', argsort_idxOf hp hk', e1]

end Whale
