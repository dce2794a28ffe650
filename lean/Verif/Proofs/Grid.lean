import Verif.Proofs.History
import Verif.Proofs.DemoDev
/-
A launch that the device does not accept makes `materialize` raise.
-/
namespace Whale
open Mat Hist Algo Kern
variable {V : Type}

theorem invoke_launchOK {b : Backend V} (hg : b.isGpu = true) {w w' : World V} {sch : Schedule} {K : Kernel} {out : Nat} {ins : List Nat}
    (h : invoke b w sch K out ins = .ok w') : launchOK sch = true := by
  by_contra hn
  rw [Bool.not_eq_true] at hn
  unfold invoke at h
  by_cases h1 : out ∈ ins
  · simp only [if_pos h1] at h; cases h
  by_cases h2 : K.params.length ≠ (out :: ins).length
  · simp only [if_neg h1, if_pos h2] at h; cases h
  simp only [if_neg h1, if_neg h2, hg, if_true] at h
  obtain ⟨w1, _, h⟩ := except_bind_ok h
  simp only [gpuRun, hn, Bool.false_eq_true, if_false] at h
  split at h <;> cases h

theorem runFunc_launchOK {b : Backend V} (hg : b.isGpu = true) {t : Tbl} {fuel : Nat} {w w' : World V} {p : Nat × Schedule}
    (h : runFunc b t fuel w p = .ok w') : launchOK p.2 = true := by
  unfold runFunc at h
  split at h
  · cases h
  · obtain ⟨outs, _, h⟩ := except_bind_ok h
    obtain ⟨key, _, h⟩ := except_bind_ok h
    split at h
    · exact invoke_launchOK hg h
    · obtain ⟨q, _, h⟩ := except_bind_ok h
      obtain ⟨w1, h1, _⟩ := except_bind_ok h
      exact invoke_launchOK hg h1

theorem runFuncs_launchOK {b : Backend V} (hg : b.isGpu = true) {t : Tbl} {fuel : Nat} {ps : List (Nat × Schedule)} {w w' : World V}
    (h : ps.foldlM (runFunc b t fuel) w = .ok w') : ∀ p ∈ ps, launchOK p.2 = true := by
  induction ps generalizing w with
  | nil => simp
  | cons p ps ih =>
    rw [List.foldlM_cons] at h
    obtain ⟨w1, h1, h⟩ := except_bind_ok h
    intro q hq
    rcases List.mem_cons.1 hq with rfl | hq
    · exact runFunc_launchOK hg h1
    · exact ih h q hq

/-- If materializing `a` does not raise, the device accepted all launches. -/
theorem materialize_fits {b : Backend V} (hg : b.isGpu = true) {w w' : World V} (hw : WF w.g) {a : Nat} (ha : a < w.g.length) (hns : NoScalarReshape w.g (base w.g a))
    (h : materialize b w a = .ok w') (hc : w.g.ctx (base w.g a) ≠ .const) : FitsGrid w.g (base w.g a) := by
  have hbl := Nat.lt_of_le_of_lt (base_le hw ha) ha
  have hv := base_base hw ha
  obtain ⟨f', e⟩ := materializeF_base (b := b) hw ha (a + 1) (by omega)
  unfold materialize at h
  rw [e] at h
  intro funcs t ht f hf _
  obtain ⟨funcs', t', e', hnd, _, hord, htg, hreach⟩ := convert_good hw hbl hns hv hc
  rw [ht] at e'; cases e'
  obtain ⟨scheds, es, hl, hps⟩ := schedAll_ok (isGpu := b.isGpu) htg funcs (fun _ h => h)
  have hcop : (w.g.ctx (base w.g a)).op.isConst = false := by
    cases hcc : w.g.ctx (base w.g a) <;> simp only [Ctx.op] <;> try decide
    · exact absurd hcc hc
    · have := hw _ hbl
      unfold NodeOK at this
      have hcc' : (w.g.nd (base w.g a)).ctx = _ := hcc
      rw [hcc'] at this
      exact unary_not_const this.2.1
    · have := hw _ hbl
      unfold NodeOK at this
      have hcc' : (w.g.nd (base w.g a)).ctx = _ := hcc
      rw [hcc'] at this
      exact binary_not_const this.2.2.1
  unfold materializeF at h
  simp only [hcop, hv, ht, es, bind, Except.bind] at h
  have hall := runFuncs_launchOK hg h
  have hmap : (funcs.zip scheds).map (·.1) = funcs := by
    apply List.map_fst_zip; omega
  rw [← hmap] at hf
  obtain ⟨p, hp, rfl⟩ := List.mem_map.1 hf
  obtain ⟨F, hF, hs⟩ := hps p hp
  obtain ⟨_, _, F', hF', hE, _⟩ := htg.entry p.1 (by rw [← hmap]; exact List.mem_map_of_mem hp)
  rw [hF] at hF'; cases hF'
  rw [hg] at hs
  exact (launchOK_iff hE hs).1 (hall p hp)

end Whale
