import Verif.Proofs.Adjoint
import Verif.Props.Gradient
/-
C32: the gradient rules of the linear operations are the adjoints of the operations.
-/
namespace Whale.Props
open Whale Hist Mat
variable {V : Type}

/-- C32 as far as it holds: let the scalars form a commutative ring, let array `t` be the result of a sum, reshape, broadcast, indexing, transpose, contiguous, pad or dilate of `x`
(one of those whose rule is right, `GradNode`), and `gr` any array of the shape of `t` (the gradient that comes in).  Then the rule that `backward` applies at `t` does not raise and returns
one array, of the shape of `x`, with  `<gr, t> = <returned, x>`  for the values of the four arrays.
Missing: broadcasting to the same shape (`C32_counterexample`). -/
theorem C32_adjoint_partial [CommRing V] {b : Backend V} (hb : Faithful b) (hA : RingScalar b.A) {w : World V} (hr : Reachable b w) {t gr x : Nat} (ht : t < w.g.length) (hg : gr < w.g.length)
    (hl : LinearIn x (w.g.ctx t)) (hgn : GradNode w.g t) (hs : w.g.shape gr = w.g.shape t) :
    ∃ r g', Bwd.rule b.A w.g t gr = .ok ([r], g') ∧ r < g'.length ∧ g'.shape r = w.g.shape x ∧
      (value b w gr).inner (value b w t) = (den b.A g' r).inner (value b w x) := by
  have hi := hr.inv hb
  have h := hi.winv.wf
  obtain ⟨e1, e2⟩ := vjp_lin b.A hl (den b.A w.g gr)
  obtain ⟨ys, g', e, rr⟩ := rule_ok b.A h hi.nn ht hg (by rw [e1]; simp) hs hgn
  rw [e1, e2] at rr
  obtain ⟨R, hR⟩ := lin_rel hA h hi.nn ht hgn hl
  have hxl : x < w.g.length := by have := h.inputs_lt ht x (by rw [e1]; simp); omega
  have hgs := rr.grads
  match ys, hgs with
  | [r], ⟨⟨hlt, hsh, hd⟩, _⟩ =>
    refine ⟨r, g', e, hlt, hsh, ?_⟩
    have hsr : (den b.A g' r).shape = w.g.shape x := by rw [den_shape _ rr.wf hlt, hsh]
    have := hR.adjoint (X := den b.A w.g x) (G := den b.A w.g gr) (den_shape _ h hxl) (by rw [den_shape _ h hg, hs])
    unfold value
    rw [inner_eq, inner_eq, hsr, den_shape _ h hg, hs, den_lin b.A h ht hl, this]
    refine Finset.sum_congr rfl fun j hj => ?_
    rw [hd.2 j (by rw [hsr]; exact mem_idxs.1 hj)]

/-- The same about `backward` alone: if `t`, made by such an operation from `x`, is the only use of `x` among the arrays that `y` was computed from, and `x` had no gradient, then
after `y.backward()`  `<t.grad, t> = <x.grad, x>`. -/
theorem C32_backward_partial [CommRing V] {b : Backend V} (hb : Faithful b) (hA : RingScalar b.A) {w : World V} (hr : Reachable b w) {y t x : Nat} (hy : y < w.g.length)
    (hok : BackwardOK w.g y) (ht : Reach w.g y t) (hl : LinearIn x (w.g.ctx t)) (hx : x ≠ y) (hx0 : w.grad x = none) (hone : ∀ u, Reach w.g y u → x ∈ (w.g.ctx u).inputs → u = t) :
    ∃ w' gt gx, step b w (.backward y) = .ok (.unit, w') ∧ w'.grad t = some gt ∧ w'.grad x = some gx ∧
      (value b w' gt).inner (value b w t) = (value b w' gx).inner (value b w x) := by
  have hi := hr.inv hb
  have h := hi.winv.wf
  obtain ⟨w', order, e, r⟩ := step_backward hb hr hy hok
  have htl := Nat.lt_of_le_of_lt (ht.le h hy) hy
  obtain ⟨e1, _⟩ := vjp_lin b.A hl ⟨[], fun _ => 0⟩
  have hxr : Reach w.g y x := .step ht (by rw [e1]; simp)
  have hxl := Nat.lt_of_le_of_lt (hxr.le h hy) hy
  obtain ⟨gt, hgt⟩ := Option.isSome_iff_exists.1 (r.some t ht)
  obtain ⟨gx, hgx⟩ := Option.isSome_iff_exists.1 (r.some x hxr)
  refine ⟨w', gt, gx, e, hgt, hgx, ?_⟩
  have hto : t ∈ order := (r.mem t).2 ⟨ht, by rw [e1]; simp⟩
  have hflat : ∀ l : List Nat, l.Nodup → (∀ u ∈ l, u ∈ order) → l.flatMap (contribsW b.A w.g (gradT b.A w') x) = if t ∈ l then contribsW b.A w.g (gradT b.A w') x t else [] := by
    intro l
    induction l with
    | nil => intros; rfl
    | cons u l ih =>
      intro hn hm
      obtain ⟨hn1, hn2⟩ := List.nodup_cons.1 hn
      rw [List.flatMap_cons, ih hn2 fun v hv => hm v (by simp [hv])]
      by_cases hut : u = t
      · subst hut; simp [hn1]
      · have : contribsW b.A w.g (gradT b.A w') x u = [] := by
          unfold contribsW
          split
          · unfold contribs
            rw [List.map_eq_nil_iff, List.filter_eq_nil_iff]
            intro p hp
            simp only [decide_eq_true_eq]
            intro hpx
            exact hut (hone u ((r.mem u).1 (hm u (by simp))).1 (hpx ▸ (List.of_mem_zip hp).1))
          · rfl
        rw [this, List.nil_append]
        simp [Ne.symm hut]
  have hsum := r.sum x hxl
  obtain ⟨e1, e2⟩ := vjp_lin b.A hl (den b.A w'.g gt)
  have hst : seedT b.A w y x = none := by simp [seedT, hx, gradT, hx0]
  rw [hflat order r.nodup (fun _ h => h), if_pos hto, hst] at hsum
  simp only [contribsW, gradT, hgt, hgx, Option.map_some, contribs, e1, e2, List.zip_cons_cons, List.zip_nil_left, List.filter_cons, decide_true, if_true, List.filter_nil, List.map_cons,
    List.map_nil, List.foldl_cons, List.foldl_nil, addGrad, OptEq] at hsum
  obtain ⟨R, hR⟩ := lin_rel hA h hi.nn htl (hok t ht) hl
  have hg1 := r.step.gs t gt hgt
  have hg2 := r.step.gs x gx hgx
  have hs1 : (den b.A w'.g gt).shape = w.g.shape t := by rw [den_shape _ r.step.wf hg1.2.1, hg1.2.2, r.step.ext.shape htl]
  have hs2 : (den b.A w'.g gx).shape = w.g.shape x := by rw [den_shape _ r.step.wf hg2.2.1, hg2.2.2, r.step.ext.shape hxl]
  have := hR.adjoint (X := den b.A w.g x) (G := den b.A w'.g gt) (den_shape _ h hxl) hs1
  unfold value
  rw [inner_eq, inner_eq, hs1, hs2, den_lin b.A h htl hl, this]
  refine Finset.sum_congr rfl fun j hj => ?_
  rw [hsum.2 j (by rw [hs2]; exact mem_idxs.1 hj)]

theorem zRing : RingScalar Demo.py.A := ⟨fun _ _ => rfl, rfl⟩

/-- `x.T.sum(axis=1)` with everything above it; `x` is used only by the transpose, the transpose only by the sum. -/
example : Demo.runs [.array Demo.m23, .T 0, .sum 1 (.int 1) false, .bin .mul 2 2, .backward 3] = true ∧
    LinearIn 0 ((Demo.after [.array Demo.m23, .T 0, .sum 1 (.int 1) false, .bin .mul 2 2]).g.ctx 1) ∧
    gradOf (bwd [.array Demo.m23, .T 0, .sum 1 (.int 1) false, .bin .mul 2 2] 3) 0 = some ([2, 3], [10, 14, 18, 10, 14, 18]) := by
  refine ⟨by decide +kernel, ?_, by decide +kernel⟩
  have : (Demo.after [.array Demo.m23, .T 0, .sum 1 (.int 1) false, .bin .mul 2 2]).g.ctx 1 = .transpose 0 [1, 0] := by decide +kernel
  rw [this]; rfl

/-- C32 is false in the code: for `x = [[1, 2, 3], [4, 5, 6]]`, `t = x.broadcast_to((2, 3))`, after `t.backward()`  `<t.grad, t>` is 21, but `x.grad` is `[[6]]`. -/
theorem C32_counterexample : ∃ (w w' : World Int) (t x gt gx : Nat), Reachable Demo.py w ∧ LinearIn x (w.g.ctx t) ∧ step Demo.py w (.backward t) = .ok (.unit, w') ∧
    w'.grad t = some gt ∧ w'.grad x = some gx ∧ (value Demo.py w' gt).inner (value Demo.py w t) = 21 ∧ (value Demo.py w' gx).inner (value Demo.py w x) = 6 := by
  let p : List (Call Int) := [.array Demo.m23, .broadcastTo 0 [2, 3]]
  refine ⟨Demo.after p, bwd p 1, 1, 0, 2, 3, Demo.reach (by decide +kernel), ?_, bwd_step (by decide +kernel), ?_⟩
  · have : (Demo.after p).g.ctx 1 = .broadcast 0 [2, 3] := by decide +kernel
    rw [this]; rfl
  · decide +kernel

end Whale.Props
