import Verif.Proofs.EmbedE
/-
A program alone and amid other code: arguments in the domain stay in the domain.
-/
namespace Whale
open Hist Bwd Mat
variable {V : Type} {ρ : Nat → Nat} {g1 g2 : Graph V}

theorem reach_emb (h : GEmb ρ g1 g2) {a j : Nat} (hr : Reach g2 (ρ a) j) : ∃ i, j = ρ i ∧ Reach g1 a i := by
  induction hr with
  | refl => exact ⟨a, rfl, .refl⟩
  | step _ hx ih =>
    obtain ⟨i, rfl, hi⟩ := ih
    rw [h.ctx, Ctx.ren_inputs] at hx
    obtain ⟨x, hx', rfl⟩ := List.mem_map.1 hx
    exact ⟨x, rfl, .step hi hx'⟩

theorem noScalarReshape_emb (h : GEmb ρ g1 g2) {a : Nat} (hs : NoScalarReshape g1 a) : NoScalarReshape g2 (ρ a) := by
  intro j hj hsr
  obtain ⟨i, rfl, hi⟩ := reach_emb h hj
  refine hs i hi ?_
  unfold ScalarReshape at *
  rw [h.ctx] at hsr
  cases hc : g1.ctx i <;> rw [hc] at hsr <;> simp_all [Ctx.ren]

theorem noEmpty_emb (h : GEmb ρ g1 g2) {a : Nat} (hs : NoEmpty g1 a) : NoEmpty g2 (ρ a) := by
  intro j hj
  obtain ⟨i, rfl, hi⟩ := reach_emb h hj
  rw [h.shape]; exact hs i hi

theorem backwardOK_emb (h : GEmb ρ g1 g2) {a : Nat} (hs : BackwardOK g1 a) : BackwardOK g2 (ρ a) := by
  intro j hj
  obtain ⟨i, rfl, hi⟩ := reach_emb h hj
  have := hs i hi
  unfold GradNode at *
  rw [h.ctx]
  cases hc : g1.ctx i <;> rw [hc] at this <;> simp only [Ctx.ren, h.shape] <;> exact this

theorem fitsGrid_emb (h : GEmb ρ g1 g2) (hw : WF g1) {a : Nat} (ha : a < g1.length) (hns : NoScalarReshape g1 a) (hv : (g1.ctx a).op.isView = false) (hs : FitsGrid g1 a) : FitsGrid g2 (ρ a) := by
  intro funcs t hc f hf hnc
  obtain ⟨funcs1, t1, e1, _⟩ := convert_ok hw ha hns hv
  obtain ⟨⟨f2, t2⟩, e2, hf2, _⟩ := convert_emb h hw ha _ e1
  rw [hc] at e2; cases e2
  simp only at hf2
  subst hf2
  obtain ⟨i, hi, rfl⟩ := List.mem_map.1 hf
  rw [h.shape]
  refine hs funcs1 t1 e1 i hi fun e => hnc ?_
  rw [h.ctx, e]; rfl

theorem argsOK_emb {b : Backend V} {u w : World V} (hw : WF u.g) (h : WEmb ρ u w) {c : Call V} (hin : ∀ a ∈ c.arrays, a < u.g.length) (ha : ArgsOK b u c)
    (hc : ∀ a, c = .materialize a → NoCollision (w.log ++ launchLog b.isGpu w.g (ρ a))) : ArgsOK b w (c.ren ρ) := by
  cases c <;> simp only [Call.ren, ArgsOK] at *
  case array | full | reshape => exact ha
  case broadcastTo a s => rw [h.g.shape]; exact ha
  case pad a d x y => rw [h.g.shape]; exact ha
  case dilate a d st => rw [h.g.shape]; exact ha
  case setGrad a k => rw [h.g.shape, h.g.shape]; exact ha
  case backward a => exact backwardOK_emb h.g ha
  case materialize a =>
    have hal := hin a (.head _)
    rw [base_emb h.g hw hal]
    exact ⟨noScalarReshape_emb h.g ha.1, hc a rfl, fun hg => ⟨noEmpty_emb h.g (ha.2.2 hg).1,
      fitsGrid_emb h.g hw (Nat.lt_of_le_of_lt (base_le hw hal) hal) ha.1 (base_base hw hal) (ha.2.2 hg).2⟩⟩

end Whale
