import Verif.Spec.Observe
import Verif.Proofs.History
/-
Every array is its value.
-/
namespace Whale
open Mat Hist
variable {V : Type}

theorem NoOffsetReshape.ext {g g' : Graph V} (he : Ext g g') (hw : WF g) {a : Nat} (h : NoOffsetReshape g a) (ha : a < g.length) : NoOffsetReshape g' a := by
  induction h with
  | base hv => exact .base (by rw [he.ctx ha]; exact hv)
  | reshape hc ho _ ih =>
    have hx := hw.inputs_lt ha _ (by rw [hc]; exact List.mem_singleton.2 rfl)
    exact .reshape (by rw [he.ctx ha]; exact hc) (by rw [he.offset (by omega)]; exact ho) (ih (by omega))
  | broadcast hc _ ih =>
    have hx := hw.inputs_lt ha _ (by rw [hc]; exact List.mem_singleton.2 rfl)
    exact .broadcast (by rw [he.ctx ha]; exact hc) (ih (by omega))
  | slice hc _ ih =>
    have hx := hw.inputs_lt ha _ (by rw [hc]; exact List.mem_singleton.2 rfl)
    exact .slice (by rw [he.ctx ha]; exact hc) (ih (by omega))
  | transpose hc _ ih =>
    have hx := hw.inputs_lt ha _ (by rw [hc]; exact List.mem_singleton.2 rfl)
    exact .transpose (by rw [he.ctx ha]; exact hc) (ih (by omega))

/-- `tolist` succeeds only if the base is available. -/
theorem tolist_avail {b : Backend V} {w : World V} {a : Nat} {p : Nested V × World V} (ht : tolist b w a = .ok p) : Avail b w (base w.g a) := by
  unfold tolist at ht
  obtain ⟨w1, h1, _⟩ := except_bind_ok ht
  unfold ensureCpu at h1
  split at h1
  · rename_i l hl; exact .inl (by rw [hl]; rfl)
  · split at h1
    · rename_i hg
      split at h1
      · rename_i l hl; exact .inr ⟨hg, by rw [hl]; rfl⟩
      · cases h1
    · cases h1

theorem base_ext {g g' : Graph V} (he : Ext g g') (hw : WF g) {a : Nat} (ha : a < g.length) : base g' a = base g a := by
  unfold base
  generalize a + 1 = n
  induction n generalizing a with
  | zero => rfl
  | succ n ih =>
    unfold baseF
    rw [he.ctx ha]
    split
    · split
      · rename_i x l hi
        have := hw.inputs_lt ha x (by rw [hi]; exact List.mem_cons_self)
        exact ih (by omega)
      · rfl
    · rfl

/-- In every world that satisfies the invariant, every array is its value. -/
theorem InvG.is_value {b : Backend V} (hb : Faithful b) {w : World V} (h : Inv b w) {a : Nat} (ha : a < w.g.length) : Is b w a (value b w a) := by
  refine ⟨ha, (den_shape b.A h.winv.wf ha).symm, ⟨rfl, fun _ _ => rfl⟩, fun hno w1 hr o w2 hs => ?_, fun hno w1 hr hargs => ?_⟩
  · obtain ⟨h1, hl⟩ := hr.later hb h
    have ha1 : a < w1.g.length := Nat.lt_of_lt_of_le ha hl.ext.length
    have hs' := hs
    unfold step at hs
    rw [if_pos (by simpa [Call.arrays] using ha1)] at hs
    simp only [exec1] at hs
    cases ht : tolist b w1 a with
    | error e => rw [ht] at hs; cases hs
    | ok p =>
      obtain ⟨l, cpu, ev, e, _, _, hd⟩ := tolist_ok h1.winv ha1 (tolist_avail ht)
      rw [e] at hs
      cases hs
      rw [hd (hno.ext hl.ext h.winv.wf ha), den_ext b.A hl.ext h1.winv.wf ha]; rfl
  · obtain ⟨h1, hl⟩ := hr.later hb h
    have ha1 : a < w1.g.length := Nat.lt_of_lt_of_le ha hl.ext.length
    have hbl := Nat.lt_of_le_of_lt (base_le h1.winv.wf ha1) ha1
    have hargs2 := hargs
    obtain ⟨hns, hnc, hne⟩ := hargs
    obtain ⟨w2, e2, r2⟩ := materialize_ok hb h1.winv ha1 hns hnc (fun hg => kernelSizes_of h1.winv.wf ha1 hns (hne hg))
    have es : step b w1 (.materialize a) = .ok (.unit, w2) := by
      unfold step
      rw [if_pos (by simpa [Call.arrays] using ha1)]
      simp only [exec1, e2]; rfl
    refine ⟨w2, es, fun w3 hr3 => ?_⟩
    have hc := step_ok hb h1 (c := .materialize a) hargs2 es
    obtain ⟨h3, hl3⟩ := hr3.later hb hc.inv
    have hx := hl.ext.trans (hc.later.ext.trans hl3.ext)
    have ha3 : a < w3.g.length := Nat.lt_of_lt_of_le ha hx.length
    have hav : Avail b w3 (base w3.g a) := by
      rw [base_ext hl3.ext hc.inv.winv.wf (by rw [r2.g]; exact ha1), r2.g]
      exact hl3.avail (by rw [r2.g]; exact hbl) r2.avail
    obtain ⟨l, cpu, ev, e, _, _, hd⟩ := tolist_ok h3.winv ha3 hav
    refine ⟨{ w3 with cpu := cpu, ev := ev }, ?_⟩
    · unfold step
      rw [if_pos (by simpa [Call.arrays] using ha3)]
      simp only [exec1, e]
      rw [hd (hno.ext hx h.winv.wf ha), den_ext b.A hx h3.winv.wf ha]; rfl

theorem Is.congr {b : Backend V} {w : World V} {a : Nat} {T U : Tensor V} (h : Is b w a T) (he : T.Equiv U) : Is b w a U := by
  refine ⟨h.exists_, h.shape.trans he.1, h.value.trans he, fun hno => ?_, fun hno => ?_⟩
  · have := h.shows hno
    unfold Shows at *
    rw [he.toNested] at this; exact this
  · have := h.computes hno
    unfold Computes at *
    rw [he.toNested] at this; exact this

/-- After a legal call every array of the new world is its value. -/
theorem InvG.is_of {b : Backend V} (hb : Faithful b) {w : World V} (h : Inv b w) {a : Nat} (ha : a < w.g.length) {T : Tensor V} (he : (den b.A w.g a).Equiv T) : Is b w a T :=
  (h.is_value hb ha).congr he

theorem made_is {b : Backend V} (hb : Faithful b) {w : World V} (h : Inv b w) {g' : Graph V} {r : Nat} {s : List Int} (m : MadeS w.g g' r s) {T : Tensor V}
    (hd : (den b.A g' r).Equiv T) : Is b { w with g := g' } r T :=
  (made_inv h m).inv.is_of hb m.lt hd

theorem step_eq {b : Backend V} {w : World V} {c : Call V} (hin : ∀ a ∈ c.arrays, a < w.g.length) : step b w c = exec1 b w c := by
  unfold step; rw [if_pos hin]

theorem step_made {b : Backend V} {w : World V} {c : Call V} {r : Nat} {g' : Graph V} (hin : ∀ a ∈ c.arrays, a < w.g.length)
    (e : exec1 b w c = madeE w (.ok (r, g'))) : step b w c = .ok (.arr r, { w with g := g' }) := by rw [step_eq hin, e]; rfl

/-- An array whose base is available is readable from now on. -/
theorem readable {b : Backend V} (hb : Faithful b) {w : World V} (h : Inv b w) {a : Nat} (ha : a < w.g.length) (hav : Avail b w (base w.g a)) (hno : NoOffsetReshape w.g a) :
    Reads b w a (value b w a) := by
  intro w1 hr
  obtain ⟨h1, hl⟩ := hr.later hb h
  have ha1 : a < w1.g.length := Nat.lt_of_lt_of_le ha hl.ext.length
  have hbl := Nat.lt_of_le_of_lt (base_le h.winv.wf ha) ha
  have hav1 : Avail b w1 (base w1.g a) := by
    rw [base_ext hl.ext h.winv.wf ha]
    exact hl.avail hbl hav
  obtain ⟨l, cpu, ev, e, _, _, hd⟩ := tolist_ok h1.winv ha1 hav1
  refine ⟨{ w1 with cpu := cpu, ev := ev }, ?_⟩
  rw [step_eq (by simpa [Call.arrays] using ha1)]
  simp only [exec1, e]
  rw [hd (hno.ext hl.ext h.winv.wf ha), den_ext b.A hl.ext h1.winv.wf ha]; rfl

theorem avail_base_const {b : Backend V} {w : World V} (hw : WF w.g) {a : Nat} (ha : a < w.g.length) (hc : w.g.ctx a = .const) : Avail b w (base w.g a) := by
  rw [base_nonview (by rw [hc]; rfl)]
  obtain ⟨l, hl, _⟩ := const_val hw ha hc
  left; unfold cpuBuf; rw [hl]
  cases w.cpu a <;> rfl

/-- A constant is readable from now on. -/
theorem readable_const {b : Backend V} (hb : Faithful b) {w : World V} (h : Inv b w) {a : Nat} (ha : a < w.g.length) (hc : w.g.ctx a = .const) :
    Reads b w a (value b w a) :=
  readable hb h ha (avail_base_const h.winv.wf ha hc) (.base (by rw [hc]; rfl))

end Whale
