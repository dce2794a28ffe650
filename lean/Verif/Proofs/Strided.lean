import Verif.Proofs.Observe
import Verif.Spec.Strided
/-
`tolist` reads through offset and strides, for every array.
-/
namespace Whale
open Mat Hist
variable {V : Type}

theorem toNdlist_strided {b : Backend V} {w : World V} (h : WInv b w) {a : Nat} (ha : a < w.g.length) :
    ND.toNdlist (den b.A w.g (base w.g a)).flatten (w.g.shape a) (w.g.strides a) (w.g.offset a) = .ok (strided b w a).toNested := by
  unfold Tensor.toNested
  apply toNdlist_ok (h.wf.strides_length ha)
  intro idx hv
  obtain ⟨j, hj, he, _⟩ := layout b.A h.wf ha hv
  have hb := ravel_bounds hj
  have hbl : base w.g a < w.g.length := Nat.lt_of_le_of_lt (base_le h.wf ha) ha
  have hlen : ((den b.A w.g (base w.g a)).flatten).length = (prod (w.g.shape (base w.g a))).toNat := by
    have := flatten_len h hbl; omega
  unfold addr at he
  simp only [strided, position, value, he]
  simp only [ND.fetch, if_pos hb.1]
  rw [List.getD_eq_getElem?_getD, List.getElem?_eq_getElem (by omega)]
  simp [pure, Except.pure]

theorem position_bounds {b : Backend V} {w : World V} (h : WInv b w) {a : Nat} (ha : a < w.g.length) {i : List Int} (hv : ValidIdx (w.g.shape a) i) :
    0 ≤ position w a i ∧ position w a i < (value b w (base w.g a)).flatten.length := by
  obtain ⟨j, hj, he, _⟩ := layout b.A h.wf ha hv
  have hb := ravel_bounds hj
  have hbl : base w.g a < w.g.length := Nat.lt_of_le_of_lt (base_le h.wf ha) ha
  have := flatten_len h hbl
  unfold addr at he
  unfold position value
  rw [he]; omega

theorem tolist_strided {b : Backend V} {w : World V} (h : WInv b w) {a : Nat} (ha : a < w.g.length) (hav : Avail b w (base w.g a)) :
    ∃ w', tolist b w a = .ok ((strided b w a).toNested, w') := by
  have hbl : base w.g a < w.g.length := Nat.lt_of_le_of_lt (base_le h.wf ha) ha
  obtain ⟨cpu, ev, e, hi, hc, hm⟩ := ensureCpu_ok h hbl hav
  have hl := toNdlist_strided h ha
  refine ⟨{ w with cpu := cpu, ev := ev }, ?_⟩
  unfold tolist
  simp only [e, bind, Except.bind, hc, hl]; rfl

theorem strided_ext {b : Backend V} {w w' : World V} (he : Ext w.g w'.g) (hw : WF w.g) (hw' : WF w'.g) {a : Nat} (ha : a < w.g.length) : strided b w' a = strided b w a := by
  have hbl : base w.g a < w.g.length := Nat.lt_of_le_of_lt (base_le hw ha) ha
  unfold strided position value
  rw [base_ext he hw ha, den_ext b.A he hw' hbl]
  simp only [Graph.shape, Graph.strides, Graph.offset, he.nd ha]

theorem shows_strided {b : Backend V} (hb : Faithful b) {w : World V} (h : Inv b w) {a : Nat} (ha : a < w.g.length) : Shows b w a (strided b w a) := by
  intro w1 hr o w2 hs
  obtain ⟨h1, hl⟩ := hr.later hb h
  have ha1 : a < w1.g.length := Nat.lt_of_lt_of_le ha hl.ext.length
  rw [step_eq (by simpa [Call.arrays] using ha1)] at hs
  simp only [exec1] at hs
  cases ht : tolist b w1 a with
  | error e => rw [ht] at hs; cases hs
  | ok p =>
    obtain ⟨w', e⟩ := tolist_strided h1.winv ha1 (tolist_avail ht)
    rw [e] at hs
    cases hs
    rw [strided_ext hl.ext h.winv.wf h1.winv.wf ha]

theorem computes_strided {b : Backend V} (hb : Faithful b) {w : World V} (h : Inv b w) {a : Nat} (ha : a < w.g.length) : Computes b w a (strided b w a) := by
  intro w1 hr hargs
  obtain ⟨h1, hl⟩ := hr.later hb h
  have ha1 : a < w1.g.length := Nat.lt_of_lt_of_le ha hl.ext.length
  have hbl := Nat.lt_of_le_of_lt (base_le h1.winv.wf ha1) ha1
  have hargs2 := hargs
  obtain ⟨hns, hnc, hne⟩ := hargs
  obtain ⟨w2, e2, r2⟩ := materialize_ok hb h1.winv ha1 hns hnc (fun hg => kernelSizes_of h1.winv.wf ha1 hns (hne hg))
  have es : step b w1 (.materialize a) = .ok (.unit, w2) := by
    unfold step
    rw [if_pos (by simpa [Call.arrays] using ha1)]
    simp only [exec1, e2]; rfl
  refine ⟨w2, es, fun w3 hr3 => ?_⟩
  have hc := step_ok hb h1 (c := .materialize a) hargs2 es
  obtain ⟨h3, hl3⟩ := hr3.later hb hc.inv
  have hx := hl.ext.trans (hc.later.ext.trans hl3.ext)
  have ha3 : a < w3.g.length := Nat.lt_of_lt_of_le ha hx.length
  have hav : Avail b w3 (base w3.g a) := by
    rw [base_ext hl3.ext hc.inv.winv.wf (by rw [r2.g]; exact ha1), r2.g]
    exact hl3.avail (by rw [r2.g]; exact hbl) r2.avail
  obtain ⟨w4, e⟩ := tolist_strided h3.winv ha3 hav
  refine ⟨w4, ?_⟩
  unfold step
  rw [if_pos (by simpa [Call.arrays] using ha3)]
  simp only [exec1, e]
  rw [strided_ext hx h.winv.wf h3.winv.wf ha]; rfl

end Whale
