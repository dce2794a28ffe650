import Verif.Proofs.Numbers
import Verif.Spec.Reach
import Verif.Spec.Denote
/-
For C64: the elements of computed arrays are numbers of the element type.
-/
namespace Whale
variable {V : Type}

theorem denF_elem {A : Scalar V} {P : V → Prop} (h0 : P (A.ofInt 0)) (hun : ∀ op x, P x → P (A.un op x)) (hbin : ∀ op x y, P x → P y → P (A.bin op x y)) {g : Graph V} :
    ∀ (n i : Nat), (∀ j, Reach g i j → ∀ l, (g.nd j).val = some l → ∀ v ∈ l, P v) → ∀ idx, P ((denF A g n i).get idx) := by
  have sub : ∀ {i x j}, x ∈ (g.ctx i).inputs → Reach g x j → Reach g i j := by
    intro i x j hx h
    induction h with
    | refl => exact .step .refl hx
    | step _ h2 ih => exact .step ih h2
  intro n
  induction n with
  | zero => intro i _ _; exact h0
  | succ n ih =>
    intro i hP
    have ih' : ∀ x ∈ (g.ctx i).inputs, ∀ idx, P ((denF A g n x).get idx) := fun x hx => ih x fun j hj => hP j (sub hx hj)
    simp only [denF]
    cases hc : g.ctx i with
    | const =>
      intro idx
      simp only [Tensor.ofFlat]
      rw [List.getD_eq_getElem?_getD]
      cases hv : (g.nd i).val with
      | none => exact h0
      | some l =>
        simp only [Option.getD_some]
        cases hk : l[(ravel (g.shape i) idx).toNat]? with
        | none => exact h0
        | some v => exact hP i .refl l hv v (List.mem_of_getElem? hk)
    | unary op x => exact fun idx => hun op _ (ih' x (by rw [hc]; simp [Ctx.inputs]) idx)
    | binary op l r => exact fun idx => hbin op _ _ (ih' l (by rw [hc]; simp [Ctx.inputs]) idx) (ih' r (by rw [hc]; simp [Ctx.inputs]) idx)
    | sum x ax kd =>
      have hx := ih' x (by rw [hc]; simp [Ctx.inputs])
      intro idx
      simp only [Tensor.sum]
      generalize List.filter _ _ = l
      have h0' := h0
      generalize A.ofInt 0 = z at h0' ⊢
      induction l generalizing z with
      | nil => exact h0'
      | cons j l ihl => exact ihl _ (hbin .Add _ _ h0' (hx j))
    | reshape x s => exact fun idx => ih' x (by rw [hc]; simp [Ctx.inputs]) _
    | broadcast x s => exact fun idx => ih' x (by rw [hc]; simp [Ctx.inputs]) _
    | slice x s => exact fun idx => ih' x (by rw [hc]; simp [Ctx.inputs]) _
    | transpose x ax => exact fun idx => ih' x (by rw [hc]; simp [Ctx.inputs]) _
    | contiguous x => exact fun idx => ih' x (by rw [hc]; simp [Ctx.inputs]) _
    | pad x d b a =>
      intro idx
      simp only [Tensor.pad]
      split
      · exact ih' x (by rw [hc]; simp [Ctx.inputs]) _
      · exact h0
    | dilate x d k =>
      intro idx
      simp only [Tensor.dilate]
      split
      · exact ih' x (by rw [hc]; simp [Ctx.inputs]) _
      · exact h0

theorem den_elem {A : Scalar V} {P : V → Prop} (h0 : P (A.ofInt 0)) (hun : ∀ op x, P x → P (A.un op x)) (hbin : ∀ op x y, P x → P y → P (A.bin op x y)) {g : Graph V} {i : Nat}
    (hP : ∀ j, Reach g i j → ∀ l, (g.nd j).val = some l → ∀ v ∈ l, P v) : ∀ v ∈ (den A g i).flatten, P v := by
  intro v hv
  unfold Tensor.flatten at hv
  obtain ⟨idx, _, rfl⟩ := List.mem_map.1 hv
  exact denF_elem h0 hun hbin _ i hP idx

section
variable {L : Lang} {N : Sem.Num V} {dt : DType} {junk : V} (hc : ∀ a v, Sem.convert N (Sem.elemType L dt) a = some v → Sem.Elem L N dt v) (hj : Sem.Elem L N dt junk)
include hc hj

theorem elem_getD (x : Option V) : Sem.Elem L N dt ((x.bind (Sem.convert N (Sem.elemType L dt))).getD junk) := by
  cases h : x.bind (Sem.convert N (Sem.elemType L dt)) with
  | none => exact hj
  | some v =>
    cases x with
    | none => cases h
    | some a => exact hc a v h

theorem scalarOf_elem_int (i : Int) : Sem.Elem L N dt ((Sem.scalarOf L N dt junk).ofInt i) := elem_getD hc hj _
theorem scalarOf_elem_un (op : Ops) (x : V) : Sem.Elem L N dt ((Sem.scalarOf L N dt junk).un op x) := elem_getD hc hj _
theorem scalarOf_elem_bin (op : Ops) (x y : V) : Sem.Elem L N dt ((Sem.scalarOf L N dt junk).bin op x y) := elem_getD hc hj _
end

end Whale
