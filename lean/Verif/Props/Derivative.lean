import Verif.Proofs.Derivative
import Verif.Props.Gradient
/-
C28: gradients are derivatives.
-/
namespace Whale.Props
open Whale Hist Mat
open scoped Classical

/-- C28 as far as it holds, in exact real arithmetic, for all directions at once: let `y` be built only from operations whose gradient rule is right (`BackwardOK`) and that are differentiable
at the actual data (`InDomain`), let `y` have no gradient and none of the computed arrays below it (constants may have accumulated gradients).  Then `y.backward()` succeeds, and for every
curve of data of the constants, the derivative of the sum of the elements of `y` along the curve is the sum over the constants `x` below `y` of
`<what was added to x.grad, velocity of x>`.
Missing: the operations excluded by `BackwardOK` (see `C28_counterexample`); with gradients left behind on computed arrays see `C33_any_state_partial`. -/
theorem C28_derivative_partial {b : Backend ℝ} (hb : Faithful b) (hA : b.A = realScalar) {w : World ℝ} (hr : Reachable b w) {y : Nat} (hy : y < w.g.length) (hok : BackwardOK w.g y)
    (hy0 : w.grad y = none) (h0 : ∀ i, Reach w.g y i → w.g.ctx i ≠ .const → w.grad i = none) :
    ∃ w', step b w (.backward y) = .ok (.unit, w') ∧
      ∀ c c', Curve w.g c c' → (∀ i, Reach w.g y i → InDomain (fun τ => withData w.g (c τ)) i) →
        HasDerivAt (fun τ => totalAt w.g (c τ) y)
          (∑ x ∈ leavesOf w.g y, ((gradOr0 w' x).inner (.ofFlat 0 (w.g.shape x) (c' x)) - (gradOr0 w x).inner (.ofFlat 0 (w.g.shape x) (c' x)))) 0 := by
  have hi := hr.inv hb
  have h := hi.winv.wf
  obtain ⟨w', order, e, r⟩ := step_backward hb hr hy hok
  rw [hA] at r
  refine ⟨w', e, fun c c' hc hd => ?_⟩
  have ht := telescope hc h hi.nn hi.gs hy hok hd r hy0 h0
  have hsm := (reach_local hc h hi.nn hy hok hd y .refl).1
  have hder : HasDerivAt (fun τ => totalAt w.g (c τ) y) (∑ j ∈ idxs (w.g.shape y), tangent w.g c y j) 0 := by
    have : (fun τ => totalAt w.g (c τ) y) = fun τ => ∑ j ∈ idxs (w.g.shape y), elemAt w.g c y j τ := by
      funext τ
      unfold totalAt Tensor.total Tensor.flatten elemAt
      rw [den_shape _ (hc.wf h τ) (by rwa [withData_length]), withData_shape, sum_indices]
    rw [this]
    exact HasDerivAt.fun_sum fun j hj => hsm j (mem_idxs.1 hj)
  have hpair : ∀ (v : World ℝ) (_ : WF v.g) (_ : GradShapes v) (_ : ∀ x < w.g.length, v.g.shape x = w.g.shape x), ∀ x ∈ leavesOf w.g y,
      pairO w.g c x (gradT realScalar v x) = (gradOr0 v x).inner (.ofFlat 0 (w.g.shape x) (c' x)) := by
    intro v hv hgs hsh x hx
    simp only [leavesOf, Finset.mem_filter, Finset.mem_range] at hx
    obtain ⟨hxl, hxr, hxc⟩ := hx
    have hlc := (local_const hc h hxl hxc).2
    unfold gradOr0 pairO
    rw [inner_eq]
    cases hg : gradT realScalar v x with
    | none => simp
    | some T =>
      obtain ⟨k, hk, rfl⟩ := Option.map_eq_some_iff.1 hg
      have := hgs x k hk
      simp only [Option.map_some, Option.getD_some, pair]
      rw [den_shape _ hv this.2.1, this.2.2, hsh x hxl]
      exact Finset.sum_congr rfl fun j hj => by rw [hlc j (mem_idxs.1 hj)]
  rw [Finset.sum_sub_distrib, ← Finset.sum_congr rfl (hpair w' r.step.wf r.step.gs fun x hx => r.step.ext.shape hx),
    ← Finset.sum_congr rfl (hpair w h hi.gs fun _ _ => rfl), ht]
  simpa using hder

theorem pairO_seed {g : Graph ℝ} {c : ℝ → Nat → List ℝ} {w : World ℝ} (hw : w.g = g) (hwf : WF g) (hgs : GradShapes w) (y i : Nat) (D : List Int → ℝ)
    (hD : ∀ j, ValidIdx (g.shape i) j → tangent g c i j = D j) :
    pairO g c i (seedT realScalar w y i) = ∑ j ∈ idxs (g.shape i), (startOr0 w y i).get j * D j ∧ (startOr0 w y i).shape = g.shape i := by
  subst hw
  unfold seedT startOr0
  split
  · rename_i hy
    obtain ⟨rfl, _⟩ := hy
    refine ⟨?_, rfl⟩
    simp only [pairO, Option.map_some, Option.getD_some, pair]
    have : oneOf realScalar (w.g.dtype i) = 1 := by unfold oneOf; split <;> simp [realScalar]
    exact Finset.sum_congr rfl fun j hj => by rw [hD j (mem_idxs.1 hj), this]
  · unfold gradOr0
    cases hg : gradT realScalar w i with
    | none => simp [pairO]
    | some T =>
      obtain ⟨k, hk, rfl⟩ := Option.map_eq_some_iff.1 hg
      have := hgs i k hk
      simp only [pairO, Option.map_some, Option.getD_some, pair]
      exact ⟨Finset.sum_congr rfl fun j hj => by rw [hD j (mem_idxs.1 hj)], by rw [den_shape _ hwf this.2.1, this.2.2]⟩

/-- C33 and C28 from any state: whatever gradients the arrays below `y` have already (left by earlier `backward()` calls or assigned), `y.backward()` adds to the gradients of the constants
the derivative of the sum, over all computed arrays `i` below `y`, of `<gradient that i started with, i>` (those gradients held fixed; `y` starts with ones if it has no gradient).
So a second `y.backward()` does not add the derivative of `y` again, but that of the sum of all computed arrays weighted with the gradients left by the first. -/
theorem C33_any_state_partial {b : Backend ℝ} (hb : Faithful b) (hA : b.A = realScalar) {w : World ℝ} (hr : Reachable b w) {y : Nat} (hy : y < w.g.length) (hok : BackwardOK w.g y) :
    ∃ w', step b w (.backward y) = .ok (.unit, w') ∧
      ∀ c c', Curve w.g c c' → (∀ i, Reach w.g y i → InDomain (fun τ => withData w.g (c τ)) i) →
        HasDerivAt (fun τ => ∑ i ∈ computedOf w.g y, (startOr0 w y i).inner (den realScalar (withData w.g (c τ)) i))
          (∑ x ∈ leavesOf w.g y, ((gradOr0 w' x).inner (.ofFlat 0 (w.g.shape x) (c' x)) - (startOr0 w y x).inner (.ofFlat 0 (w.g.shape x) (c' x)))) 0 := by
  have hi := hr.inv hb
  have h := hi.winv.wf
  obtain ⟨w', order, e, r⟩ := step_backward hb hr hy hok
  rw [hA] at r
  refine ⟨w', e, fun c c' hc hd => ?_⟩
  have ht := telescope_any hc h hi.nn hi.gs hy hok hd r
  have hloc := reach_local hc h hi.nn hy hok hd
  have hseed : ∀ i, pairO w.g c i (seedT realScalar w y i) = ∑ j ∈ idxs (w.g.shape i), (startOr0 w y i).get j * tangent w.g c i j ∧ (startOr0 w y i).shape = w.g.shape i :=
    fun i => pairO_seed rfl h hi.gs y i _ fun _ _ => rfl
  have hder : HasDerivAt (fun τ => ∑ i ∈ computedOf w.g y, (startOr0 w y i).inner (den realScalar (withData w.g (c τ)) i))
      (∑ i ∈ computedOf w.g y, pairO w.g c i (seedT realScalar w y i)) 0 := by
    refine HasDerivAt.fun_sum fun i him => ?_
    have hir : Reach w.g y i := by simp only [computedOf, Finset.mem_filter] at him; exact him.2.1
    rw [(hseed i).1]
    have : (fun τ => (startOr0 w y i).inner (den realScalar (withData w.g (c τ)) i)) = fun τ => ∑ j ∈ idxs (w.g.shape i), (startOr0 w y i).get j * elemAt w.g c i j τ := by
      funext τ
      rw [inner_eq, (hseed i).2]; rfl
    rw [this]
    exact HasDerivAt.fun_sum fun j hj => ((hloc i hir).1 j (mem_idxs.1 hj)).const_mul _
  have hpair : ∀ x ∈ leavesOf w.g y, pairO w.g c x (gradT realScalar w' x) = (gradOr0 w' x).inner (.ofFlat 0 (w.g.shape x) (c' x)) := by
    intro x hx
    simp only [leavesOf, Finset.mem_filter, Finset.mem_range] at hx
    obtain ⟨hxl, hxr, hxc⟩ := hx
    have hlc := (local_const hc h hxl hxc).2
    unfold gradOr0 pairO
    rw [inner_eq]
    cases hg : gradT realScalar w' x with
    | none => simp
    | some T =>
      obtain ⟨k, hk, rfl⟩ := Option.map_eq_some_iff.1 hg
      have := r.step.gs x k hk
      simp only [Option.map_some, Option.getD_some, pair]
      rw [den_shape _ r.step.wf this.2.1, this.2.2, r.step.ext.shape hxl]
      exact Finset.sum_congr rfl fun j hj => by rw [hlc j (mem_idxs.1 hj)]
  have hstart : ∀ x ∈ leavesOf w.g y, pairO w.g c x (seedT realScalar w y x) = (startOr0 w y x).inner (.ofFlat 0 (w.g.shape x) (c' x)) := by
    intro x hx
    simp only [leavesOf, Finset.mem_filter, Finset.mem_range] at hx
    obtain ⟨hxl, hxr, hxc⟩ := hx
    have hlc := (local_const hc h hxl hxc).2
    rw [inner_eq, (hseed x).2, (pairO_seed rfl h hi.gs y x _ hlc).1]
  rw [Finset.sum_sub_distrib, ← Finset.sum_congr rfl hpair, ← Finset.sum_congr rfl hstart, ht, add_sub_cancel_left]
  exact hder

/-- C28, partial derivatives: when no gradients exist yet, after `y.backward()` every element of the gradient of every constant `x` below `y` is the partial derivative of the sum of the
elements of `y` with respect to that element of `x`. -/
theorem C28_gradient_partial {b : Backend ℝ} (hb : Faithful b) (hA : b.A = realScalar) {w : World ℝ} (hr : Reachable b w) {y : Nat} (hy : y < w.g.length) (hok : BackwardOK w.g y)
    (h0 : ∀ i, Reach w.g y i → w.grad i = none) :
    ∃ w', step b w (.backward y) = .ok (.unit, w') ∧
      ∀ x, Reach w.g y x → w.g.ctx x = .const → ∃ gx, w'.grad x = some gx ∧ w'.g.shape gx = w.g.shape x ∧
        ∀ k : Nat, (k : Int) < prod (w.g.shape x) → (∀ i, Reach w.g y i → InDomain (fun τ => withData w.g (bump w.g x k τ)) i) →
          HasDerivAt (fun τ => totalAt w.g (bump w.g x k τ) y) ((value b w' gx).flatten.getD k 0) 0 := by
  obtain ⟨w', e, hder⟩ := C28_derivative_partial hb hA hr hy hok (h0 y .refl) fun i hi _ => h0 i hi
  have hi := hr.inv hb
  have h := hi.winv.wf
  obtain ⟨w2, e2, hsh, _⟩ := C29_shapes_partial hb hr hy hok
  rw [e] at e2
  cases e2
  obtain ⟨w2, order, e2, r⟩ := step_backward hb hr hy hok
  rw [e] at e2
  cases e2
  refine ⟨w', e, fun x hx hxc => ?_⟩
  have hxl := Nat.lt_of_le_of_lt (hx.le h hy) hy
  obtain ⟨gx, hgx⟩ := Option.isSome_iff_exists.1 (r.some x hx)
  have hgs := r.step.gs x gx hgx
  have hshape : w'.g.shape gx = w.g.shape x := by rw [hgs.2.2, r.step.ext.shape hxl]
  refine ⟨gx, hgx, hshape, fun k hk hd => ?_⟩
  -- the data of x
  have hdata : ∀ i < w.g.length, w.g.ctx i = .const → ∃ l, (w.g.nd i).val = some l ∧ (l.length : Int) = prod (w.g.shape i) := by
    intro i hil hcx
    have hok := h i hil
    unfold NodeOK at hok
    rw [show (w.g.nd i).ctx = w.g.ctx i from rfl, hcx] at hok
    obtain ⟨l, h1, h2, _⟩ := hok
    exact ⟨l, h1, h2⟩
  let c' : Nat → List ℝ := fun i => if i = x then (List.replicate (prod (w.g.shape x)).toNat 0).set k 1 else []
  have hc : Curve w.g (bump w.g x k) c' := by
    refine ⟨fun i hil hcx => ?_, fun i hil hcx τ => ?_, fun i hil hcx m => ?_⟩
    · obtain ⟨l, hl, _⟩ := hdata i hil hcx
      rw [hl]
      unfold bump
      simp only [hl, Option.getD_some, add_zero]
      split
      · congr 1
        apply List.ext_getElem (by simp)
        intro n h1 h2
        rw [List.getElem_set]
        split
        · subst_vars; simp [List.getD_eq_getElem?_getD, List.getElem?_eq_getElem h1]
        · rfl
      · rfl
    · unfold bump; dsimp only; split <;> simp
    · obtain ⟨l, hl, hlen⟩ := hdata i hil hcx
      unfold bump
      simp only [hl, Option.getD_some, c']
      split
      · rename_i hix
        subst hix
        have hkl : k < l.length := by omega
        by_cases hkm : m = k
        · subst hkm
          have e1 : (fun τ => (l.set m (l.getD m 0 + τ)).getD m 0) = fun τ => l.getD m 0 + τ := by
            funext τ; simp [List.getD_eq_getElem?_getD, List.getElem?_set, hkl]
          have e2 : ((List.replicate (prod (w.g.shape i)).toNat (0:ℝ)).set m 1).getD m 0 = 1 := by
            rw [List.getD_eq_getElem?_getD, List.getElem?_set_self (by rw [List.length_replicate]; omega)]; rfl
          rw [e1, e2]
          exact (hasDerivAt_id _).const_add _
        · have e1 : (fun τ => (l.set k (l.getD k 0 + τ)).getD m 0) = fun τ => l.getD m 0 := by
            funext τ; simp [List.getD_eq_getElem?_getD, List.getElem?_set, Ne.symm hkm]
          have e2 : ((List.replicate (prod (w.g.shape i)).toNat (0:ℝ)).set k 1).getD m 0 = 0 := by
            simp only [List.getD_eq_getElem?_getD, List.getElem?_set, Ne.symm hkm, if_false, List.getElem?_replicate]; split <;> rfl
          rw [e1, e2]
          exact hasDerivAt_const _ _
      · simp only [List.getD_nil]; exact hasDerivAt_const _ _
  have hmain := hder _ c' hc hd
  refine hmain.congr_deriv ?_
  have hxm : x ∈ leavesOf w.g y := by simp only [leavesOf, Finset.mem_filter, Finset.mem_range]; exact ⟨hxl, hx, hxc⟩
  rw [Finset.sum_eq_single x]
  · -- the one leaf
    have hz : (gradOr0 w x).inner (.ofFlat 0 (w.g.shape x) (c' x)) = 0 := by
      unfold gradOr0 gradT; rw [h0 x hx, inner_eq]; simp
    rw [hz, sub_zero]
    have hg : gradOr0 w' x = den realScalar w'.g gx := by unfold gradOr0 gradT; rw [hgx]; rfl
    have hden : (den realScalar w'.g gx).shape = w.g.shape x := by rw [den_shape _ r.step.wf hgs.2.1, hshape]
    have hnn : NonNeg (w.g.shape x) := (hi.nn x hxl).1
    have hv := (valid_unravel hnn (Int.natCast_nonneg k) hk).1
    rw [hg, inner_eq, hden, Finset.sum_eq_single (unravel (w.g.shape x) k)]
    · have hrav : ravel (w.g.shape x) (unravel (w.g.shape x) k) = k := (valid_unravel hnn (Int.natCast_nonneg k) hk).2
      have := flatten_getElem? (t := den realScalar w'.g gx) (idx := unravel (w.g.shape x) k) (by rw [hden]; exact hv)
      rw [hden, hrav, Int.toNat_natCast] at this
      unfold value
      rw [hA, List.getD_eq_getElem?_getD, this]
      simp only [Tensor.ofFlat, hrav, Int.toNat_natCast, c', if_true, Option.getD_some]
      have e2 : ((List.replicate (prod (w.g.shape x)).toNat (0:ℝ)).set k 1).getD k 0 = 1 := by
        rw [List.getD_eq_getElem?_getD, List.getElem?_set_self (by rw [List.length_replicate]; omega)]; rfl
      rw [e2, mul_one]
    · intro j hj hne
      have hvj := mem_idxs.1 hj
      have hrj : (ravel (w.g.shape x) j).toNat ≠ k := by
        intro he
        apply hne
        have hb := ravel_bounds hvj
        have : ravel (w.g.shape x) j = k := by omega
        rw [← this, unravel_ravel hvj]
      simp only [Tensor.ofFlat, c', if_true]
      have e2 : ((List.replicate (prod (w.g.shape x)).toNat (0:ℝ)).set k 1).getD (ravel (w.g.shape x) j).toNat 0 = 0 := by
        simp only [List.getD_eq_getElem?_getD, List.getElem?_set, Ne.symm hrj, if_false, List.getElem?_replicate]; split <;> rfl
      rw [e2, mul_zero]
    · intro hn; exact absurd (mem_idxs.2 hv) hn
  · intro z _ hzx
    have : ∀ v : World ℝ, (gradOr0 v z).inner (.ofFlat 0 (w.g.shape z) (c' z)) = 0 := by
      intro v
      rw [inner_eq]
      refine Finset.sum_eq_zero fun j _ => ?_
      simp [Tensor.ofFlat, c', hzx]
    rw [this, this, sub_zero]
  · intro hn; exact absurd hxm hn

/-! ### a case that meets the hypotheses -/

/-- The Python backend with exact reals. -/
noncomputable def realPy : Backend ℝ := pythonBackend realScalar

/-- `x = array([2, 3]); y = (x.log() * x).sum()` -/
noncomputable def realDemo : List (Call ℝ) := [.array (.node [.leaf 2, .leaf 3]), .un .log 0, .bin .mul 1 0, .sum 2 .none false]

theorem realDemo_ctx : ∃ w, runL realPy Mat.init realDemo = some w ∧ w.g.length = 4 ∧ w.g.ctx 0 = .const ∧ w.g.ctx 1 = .unary .Log 0 ∧ w.g.ctx 2 = .binary .Mul 1 0 ∧
    w.g.ctx 3 = .sum 2 [0] false ∧ w.g.shape 0 = [2] ∧ (w.g.nd 0).val = some [2, 3] ∧ ∀ i, w.grad i = none :=
  ⟨_, rfl, rfl, rfl, rfl, rfl, rfl, rfl, rfl, fun _ => rfl⟩

theorem realPy_faithful : Faithful realPy := pythonBackend_faithful realScalar

/-- All hypotheses of `C28_gradient_partial` hold for the demonstration program, and so does its conclusion for both elements of `x`. -/
example : ∃ w w' gx, Reachable realPy w ∧ step realPy w (.backward 3) = .ok (.unit, w') ∧ w'.grad 0 = some gx ∧
    ∀ k : Nat, k < 2 → HasDerivAt (fun τ => totalAt w.g (bump w.g 0 k τ) 3) ((value realPy w' gx).flatten.getD k 0) 0 := by
  obtain ⟨w, hw, hl, c0, c1, c2, c3, s0, v0, hg⟩ := realDemo_ctx
  have hr : Reachable realPy w := (runL_runs realPy_faithful (.init realPy) hw .refl).reachable .init
  have h := (hr.inv realPy_faithful).winv.wf
  have hctx : ∀ i, Reach w.g 3 i → i = 0 ∨ i = 1 ∨ i = 2 ∨ i = 3 := by
    intro i hi
    have := hi.le h (by omega)
    omega
  have hok : BackwardOK w.g 3 := by
    intro i hi
    rcases hctx i hi with rfl | rfl | rfl | rfl <;> simp only [GradNode, c0, c1, c2, c3]
  obtain ⟨w', e, hx⟩ := C28_gradient_partial realPy_faithful rfl hr (by omega : 3 < w.g.length) hok fun i _ => hg i
  have r0 : Reach w.g 3 0 := .step (.step (.refl) (by rw [c3]; simp [Ctx.inputs] : 2 ∈ _)) (by rw [c2]; simp [Ctx.inputs])
  obtain ⟨gx, h1, _, h3⟩ := hx 0 r0 c0
  refine ⟨w, w', gx, hr, e, h1, fun k hk => h3 k (by rw [s0]; simp; omega) fun i hi => ?_⟩
  have hz : withData w.g (bump w.g 0 k 0) = w.g := by
    apply withData_self
    intro i hil hcx
    rcases (by omega : i = 0 ∨ i = 1 ∨ i = 2 ∨ i = 3) with rfl | rfl | rfl | rfl
    · rw [v0]; simp only [bump, v0, Option.getD_some, if_true, add_zero]
      rcases (by omega : k = 0 ∨ k = 1) with rfl | rfl <;> rfl
    all_goals simp_all
  unfold InDomain
  simp only [hz]
  rcases hctx i hi with rfl | rfl | rfl | rfl <;> simp only [c0, c1, c2, c3]
  intro j hj
  rw [s0] at hj
  rw [den_eq realScalar h (by omega)]
  unfold denStep denCtx
  rw [show (w.g.nd 0).ctx = w.g.ctx 0 from rfl, c0]
  simp only [v0, Option.getD_some, Tensor.ofFlat, show (w.g.nd 0).shape = [2] from s0]
  obtain ⟨m, rfl, h0, h1⟩ : ∃ m, j = [m] ∧ 0 ≤ m ∧ m < 2 := by
    match j, hj with
    | [m], ⟨⟨h0, h1⟩, _⟩ => exact ⟨m, rfl, h0, h1⟩
  rcases (by omega : m = 0 ∨ m = 1) with rfl | rfl <;> simp [ravel]

/-- `x = array([2, 3]); y = -(-x); y.backward()` -/
noncomputable def realTwice : List (Call ℝ) := [.array (.node [.leaf 2, .leaf 3]), .un .neg 0, .un .neg 1, .backward 2]

theorem realTwice_ctx : ∃ w, runL realPy Mat.init realTwice = some w ∧ w.g.length = 6 ∧ w.g.ctx 0 = .const ∧ w.g.ctx 1 = .unary .Neg 0 ∧ w.g.ctx 2 = .unary .Neg 1 ∧
    w.grad 2 = some 3 ∧ w.grad 1 = some 4 ∧ w.grad 0 = some 5 :=
  ⟨_, rfl, rfl, rfl, rfl, rfl, rfl, rfl, rfl⟩

/-- The hypotheses of `C33_any_state_partial` hold for a second `y.backward()`, all arrays having gradients, and every curve. -/
example : ∃ w, Reachable realPy w ∧ 2 < w.g.length ∧ w.grad 1 = some 4 ∧ w.grad 2 = some 3 ∧ BackwardOK w.g 2 ∧
    ∀ c : ℝ → Nat → List ℝ, ∀ i, Reach w.g 2 i → InDomain (fun τ => withData w.g (c τ)) i := by
  obtain ⟨w, hw, hl, c0, c1, c2, g2, g1, g0⟩ := realTwice_ctx
  have hr : Reachable realPy w := (runL_runs realPy_faithful (.init realPy) hw .refl).reachable .init
  have h := (hr.inv realPy_faithful).winv.wf
  have hctx : ∀ i, Reach w.g 2 i → i = 0 ∨ i = 1 ∨ i = 2 := by
    intro i hi
    have := hi.le h (by omega)
    omega
  refine ⟨w, hr, by omega, g1, g2, fun i hi => ?_, fun c i hi => ?_⟩
  · rcases hctx i hi with rfl | rfl | rfl <;> simp only [GradNode, c0, c1, c2]
  · unfold InDomain
    rcases hctx i hi with rfl | rfl | rfl <;> simp only [withData_ctx, c0, c1, c2]

/-- C28 is false in the code: for `x = [[1, 2, 3], [4, 5, 6]]`, the sum of the elements of `y = x.broadcast_to((2, 3))` is the sum of the elements of `x`, so all partial derivatives
are 1; after `y.backward()` the gradient of `x` is `[[6]]`. -/
theorem C28_counterexample : ∃ (w w' : World Int) (x y k : Nat), Reachable Demo.py w ∧ w.g.ctx x = .const ∧ value Demo.py w y = (value Demo.py w x).broadcastTo [2, 3] ∧
    w.g.shape x = [2, 3] ∧ (∀ i, w.grad i = none) ∧ step Demo.py w (.backward y) = .ok (.unit, w') ∧ w'.grad x = some k ∧ (value Demo.py w' k).flatten = [6] := by
  let p : List (Call Int) := [.array Demo.m23, .broadcastTo 0 [2, 3]]
  refine ⟨Demo.after p, bwd p 1, 0, 1, 3, Demo.reach (by decide +kernel), by decide +kernel, ?_, by decide +kernel, fun _ => rfl, bwd_step (by decide +kernel), by decide +kernel, by decide +kernel⟩
  rfl

end Whale.Props
