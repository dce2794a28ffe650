import Verif.Proofs.Vjp4
/-
Every gradient rule succeeds and computes the vector-Jacobian product of its operation.
-/
namespace Whale
open Bwd
variable {V : Type}

theorem rule_ok (A : Scalar V) {g : Graph V} (h : WF g) (hnn : NN g) {t gr : Nat} (ht : t < g.length) (hg : gr < g.length)
    (hc : (g.ctx t).inputs ≠ []) (hsg : g.shape gr = g.shape t) (hgn : GradNode g t) :
    ∃ ys g', rule A g t gr = .ok (ys, g') ∧ RuleRes A g g' (g.ctx t).inputs ys (nodeVjp A g t (den A g gr)) := by
  have hok := h t ht
  have har := (hnn t ht).2
  unfold NodeOK at hok
  unfold rule nodeVjp
  unfold GradNode at hgn
  have hctx : (g.nd t).ctx = g.ctx t := rfl
  have hshape : (g.nd t).shape = g.shape t := rfl
  cases hcx : g.ctx t with
  | const => rw [hcx] at hc; exact absurd rfl hc
  | unary op x =>
    rw [hctx, hcx] at hok
    obtain ⟨hx, ho, e⟩ := hok
    have hst : g.shape t = g.shape x := by rw [← hshape, e]; rfl
    exact unaryRule_ok A h hnn ho ht (by omega) hg hst (by rw [hsg, hst])
  | binary op l r =>
    rw [hctx, hcx] at hok
    obtain ⟨hl, hr, ho, hlr, e⟩ := hok
    have hst : g.shape t = g.shape l := by rw [← hshape, e]; rfl
    rw [hcx] at har
    exact binaryRule_ok A h hnn har (by omega) (by omega) hg hlr (by rw [hsg, hst])
  | sum x axis kd =>
    rw [hctx, hcx] at hok
    obtain ⟨hx, _, e⟩ := hok
    have hst : g.shape t = Tensor.sumShape axis kd (g.shape x) := by rw [← hshape, e]; rfl
    exact sumRule_ok A h hnn (by omega) hg (by rw [hsg, hst])
  | reshape x s =>
    rw [hctx, hcx] at hok
    obtain ⟨hx, hp, _, _, _, e⟩ := hok
    have hst : g.shape t = s := by rw [← hshape, e]; rfl
    obtain ⟨y, g', e', rr⟩ := reshapeRule_ok A h hnn (x := x) (by omega) hg (by rw [hsg, hst, hp])
    exact ⟨[y], g', by simp only [e', bind, Except.bind]; rfl, rr⟩
  | broadcast x s =>
    rw [hctx, hcx] at hok
    obtain ⟨hx, hb, e⟩ := hok
    have hst : g.shape t = s := by rw [← hshape, e]; rfl
    rw [hcx] at hgn
    exact broadcastRule_ok A h hnn (by omega) hg hb (by rw [hsg, hst]) hgn
  | slice x subs =>
    rw [hctx, hcx] at hok
    obtain ⟨hx, hs, e⟩ := hok
    have hst : g.shape t = Tensor.sliceShape subs := by
      rw [← hshape, e]; exact sliceLayout_shape (by rw [h.strides_length (by omega), hs.length])
    rw [hcx] at hgn
    exact sliceRule_ok A h hnn hg hs hgn (by rw [hsg, hst])
  | transpose x axes =>
    rw [hctx, hcx] at hok
    obtain ⟨hx, hp, e⟩ := hok
    have hst : g.shape t = axes.map (geti (g.shape x)) := by rw [← hshape, e]; rfl
    obtain ⟨y, g', e', rr⟩ := transposeRule_ok A h hnn (x := x) (by omega) hg hp (by rw [hsg, hst])
    exact ⟨[y], g', by simp only [e', bind, Except.bind]; rfl, rr⟩
  | contiguous x =>
    rw [hctx, hcx] at hok
    obtain ⟨hx, e⟩ := hok
    have hst : g.shape t = g.shape x := by rw [← hshape, e]; rfl
    exact ⟨[gr], g, rfl, .one (madeS_refl h hg hnn) (by rw [hsg, hst]) (.refl _)⟩
  | pad x dim b c =>
    rw [hctx, hcx] at hok
    obtain ⟨hx, hd, e⟩ := hok
    have hst : g.shape t = (g.shape x).set dim.toNat (geti (g.shape x) dim.toNat + (b + c)) := by rw [← hshape, e]; rfl
    rw [hcx] at hgn
    exact padRule_ok A h hnn (by omega) hg hd.1 hd.2 hgn.1 hgn.2 (by rw [hsg, hst])
  | dilate x dim st =>
    rw [hctx, hcx] at hok
    obtain ⟨hx, hd, h1, e⟩ := hok
    have hst : g.shape t = (g.shape x).set dim.toNat ((geti (g.shape x) dim.toNat - 1) * st + 1) := by rw [← hshape, e]; rfl
    have hdl : dim.toNat < (g.shape x).length := by have := hd.2; simp only [Graph.ndim] at this; omega
    exact dilateRule_ok A h hnn hg hd.1 hd.2 h1 (by rw [geti_eq_getElem hdl]; exact (hnn x (by omega)).1 _ (List.getElem_mem _)) (by rw [hsg, hst])

end Whale
