import Verif.Spec.Switch
import Verif.Proofs.Observe
/-
The invariant of histories survives switching the backend: it mentions only the arithmetic.
-/
namespace Whale
open Mat Hist
variable {V : Type}

theorem WInv.switch {b b' : Backend V} (hA : b'.A = b.A) {w : World V} (h : WInv b w) : WInv b' w :=
  ⟨h.wf, h.nn, by rw [hA]; exact h.cpu, by rw [hA]; exact h.dev, h.cache, h.ev⟩

theorem InvG.switch {p : Prop} {b b' : Backend V} (hA : b'.A = b.A) {w : World V} (h : InvG p b w) : InvG p b' w := ⟨h.winv.switch hA, h.nn, h.gs, h.acc⟩

/-- What survives calls and switches. -/
structure LaterB (w w' : World V) : Prop where
  ext : Ext w.g w'.g
  cpuMono : ∀ i, (w.cpu i).isSome → (w'.cpu i).isSome

theorem RunsB.later {b b' : Backend V} {w w' : World V} (hb : Faithful b) (h : Inv b w) (hr : RunsB b w b' w') : Faithful b' ∧ b'.A = b.A ∧ Inv b' w' ∧ LaterB w w' := by
  induction hr with
  | refl => exact ⟨hb, rfl, h, .refl _, fun _ h => h⟩
  | call _ hl hn ih =>
    obtain ⟨h1, h2, h3, h4⟩ := ih
    obtain ⟨h5, h6⟩ := next_ok h1 h3 hl hn
    exact ⟨h1, h2, h5, h4.ext.trans h6.ext, fun i hi => h6.cpuMono i (h4.cpuMono i hi)⟩
  | stopped _ hy ha hs ih =>
    obtain ⟨h1, h2, h3, h4⟩ := ih
    obtain ⟨h5, h6⟩ := stopped_ok h3 hy ha hs
    exact ⟨h1, h2, h5, h4.ext.trans h6.ext, fun i hi => h6.cpuMono i (h4.cpuMono i hi)⟩
  | switch _ hA hf _ hn ih =>
    obtain ⟨h1, h2, h3, h4⟩ := ih
    obtain ⟨h5, h6⟩ := next_ok (c := .reset) h1 h3 (.inr trivial) hn
    exact ⟨hf, hA.trans h2, h5.switch hA, h4.ext.trans h6.ext, fun i hi => h6.cpuMono i (h4.cpuMono i hi)⟩

theorem ReachableB.inv {b : Backend V} {w : World V} (h : ReachableB b w) : Faithful b ∧ Inv b w := by
  obtain ⟨b0, hf, hr⟩ := h
  obtain ⟨h1, _, h3, _⟩ := hr.later hf (.init b0)
  exact ⟨h1, h3⟩

theorem tolist_cpuBuf {b : Backend V} {w w' : World V} {a : Nat} {l : Nested V} (h : tolist b w a = .ok (l, w')) : w'.g = w.g ∧ (cpuBuf w' (base w.g a)).isSome := by
  unfold tolist at h
  obtain ⟨w1, h1, h2⟩ := except_bind_ok h
  have hg : w1.g = w.g := by
    unfold ensureCpu at h1
    split at h1
    · cases h1; rfl
    · split at h1
      · split at h1
        · cases h1; rfl
        · cases h1
      · cases h1
  split at h2
  · rename_i data hd
    obtain ⟨l', h3, h4⟩ := except_bind_ok h2
    cases h4
    rw [hg] at hd
    exact ⟨hg, by rw [hd]; rfl⟩
  · cases h2

end Whale
