import Verif.Proofs.Adjoint
import Verif.Spec.Derivative
import Mathlib.Analysis.SpecialFunctions.Sqrt
/-
C28: derivatives along curves, the local adjoint identity of every operation, and the cancellation over the order of `backward`.
-/
namespace Whale
open Classical

section data
variable {V : Type}

theorem withData_length (g : Graph V) (d : Nat → List V) : (withData g d).length = g.length := by simp [withData]

/-- Data of a constant replaced. -/
def setVal (n : Node V) (l : List V) : Node V := match n.ctx with
  | .const => { n with val := some l }
  | _ => n

theorem withData_nd (g : Graph V) (d : Nat → List V) {i : Nat} (hi : i < g.length) : (withData g d).nd i = setVal (g.nd i) (d i) := by
  simp only [Graph.nd, withData, List.getD_eq_getElem?_getD, List.getElem?_mapIdx, List.getElem?_eq_getElem hi, Option.map_some, Option.getD_some]
  rfl

theorem withData_nd' (g : Graph V) (d : Nat → List V) {i : Nat} (hi : ¬ i < g.length) : (withData g d).nd i = g.nd i := by
  simp only [Graph.nd, withData, List.getD_eq_getElem?_getD, List.getElem?_mapIdx, List.getElem?_eq_none (Nat.not_lt.1 hi), Option.map_none]

theorem withData_shape (g : Graph V) (d : Nat → List V) (i : Nat) : (withData g d).shape i = g.shape i := by
  unfold Graph.shape
  by_cases hi : i < g.length
  · rw [withData_nd g d hi]; unfold setVal; split <;> rfl
  · rw [withData_nd' g d hi]
theorem withData_strides (g : Graph V) (d : Nat → List V) (i : Nat) : (withData g d).strides i = g.strides i := by
  unfold Graph.strides
  by_cases hi : i < g.length
  · rw [withData_nd g d hi]; unfold setVal; split <;> rfl
  · rw [withData_nd' g d hi]
theorem withData_offset (g : Graph V) (d : Nat → List V) (i : Nat) : (withData g d).offset i = g.offset i := by
  unfold Graph.offset
  by_cases hi : i < g.length
  · rw [withData_nd g d hi]; unfold setVal; split <;> rfl
  · rw [withData_nd' g d hi]
theorem withData_dtype (g : Graph V) (d : Nat → List V) (i : Nat) : (withData g d).dtype i = g.dtype i := by
  unfold Graph.dtype
  by_cases hi : i < g.length
  · rw [withData_nd g d hi]; unfold setVal; split <;> rfl
  · rw [withData_nd' g d hi]
theorem withData_ctx (g : Graph V) (d : Nat → List V) (i : Nat) : (withData g d).ctx i = g.ctx i := by
  unfold Graph.ctx
  by_cases hi : i < g.length
  · rw [withData_nd g d hi]; unfold setVal; split <;> rfl
  · rw [withData_nd' g d hi]
theorem withData_ndim (g : Graph V) (d : Nat → List V) (i : Nat) : (withData g d).ndim i = g.ndim i := by
  unfold Graph.ndim; rw [withData_shape]

theorem withData_wf {g : Graph V} (h : WF g) {d : Nat → List V} (hd : ∀ i < g.length, g.ctx i = .const → ((d i).length : Int) = prod (g.shape i)) : WF (withData g d) := by
  intro i hi
  rw [withData_length] at hi
  have hok := h i hi
  rw [withData_nd g d hi]
  unfold setVal
  unfold NodeOK at hok ⊢
  have hc : (g.nd i).ctx = g.ctx i := rfl
  cases hcx : g.ctx i <;> rw [hc, hcx] at hok <;> simp only [hc, hcx]
  case const =>
    obtain ⟨l, h1, h2, h3, h4, h5⟩ := hok
    exact ⟨d i, rfl, hd i hi hcx, h3, h4, h5⟩
  all_goals
    simp only [withData_shape, withData_ndim, withData_strides, ND.elemwiseNode, ND.reduceNode, ND.reshapeNode, ND.broadcastNode, ND.sliceNode, ND.transposeNode, ND.padNode,
      ND.dilateNode, withData_dtype, withData_offset] at hok ⊢
    exact hok

theorem withData_self {g : Graph V} {d : Nat → List V} (h : ∀ i < g.length, g.ctx i = .const → (g.nd i).val = some (d i)) : withData g d = g := by
  apply List.ext_getElem (by simp [withData])
  intro i h1 h2
  have e : g[i] = g.nd i := by simp [Graph.nd, List.getD_eq_getElem?_getD, List.getElem?_eq_getElem h2]
  simp only [withData, List.getElem_mapIdx]
  split
  · rename_i hc
    have := h i h2 (by rw [e] at hc; exact hc)
    rw [e, ← this]
  · rfl

end data

theorem realRing : RingScalar realScalar := ⟨fun _ _ => rfl, Int.cast_zero⟩

/-- The element `idx` of array `i` as a function of the curve parameter. -/
noncomputable def elemAt (g : Graph ℝ) (c : ℝ → Nat → List ℝ) (i : Nat) (idx : List Int) (τ : ℝ) : ℝ := (den realScalar (withData g (c τ)) i).get idx

/-- Its derivative at 0. -/
noncomputable def tangent (g : Graph ℝ) (c : ℝ → Nat → List ℝ) (i : Nat) (idx : List Int) : ℝ := deriv (elemAt g c i idx) 0

/-- All elements of array `i` are differentiable at 0. -/
def Smooth (g : Graph ℝ) (c : ℝ → Nat → List ℝ) (i : Nat) : Prop := ∀ idx, ValidIdx (g.shape i) idx → HasDerivAt (elemAt g c i idx) (tangent g c i idx) 0

/-- Pairing of a gradient of array `i` with the tangent of array `i`. -/
noncomputable def pair (g : Graph ℝ) (c : ℝ → Nat → List ℝ) (i : Nat) (T : Tensor ℝ) : ℝ := ∑ j ∈ idxs (g.shape i), T.get j * tangent g c i j

theorem smooth_of {g : Graph ℝ} {c : ℝ → Nat → List ℝ} {i : Nat} {D : List Int → ℝ} (h : ∀ idx, ValidIdx (g.shape i) idx → HasDerivAt (elemAt g c i idx) (D idx) 0) :
    Smooth g c i ∧ ∀ idx, ValidIdx (g.shape i) idx → tangent g c i idx = D idx := by
  have : ∀ idx, ValidIdx (g.shape i) idx → tangent g c i idx = D idx := fun idx hi => (h idx hi).deriv
  exact ⟨fun idx hi => by rw [this idx hi]; exact h idx hi, this⟩

/-- What is shown of every operation: smooth inputs give a smooth output, and pairing the output's tangent with a gradient is pairing the inputs' tangents with what the rule returns. -/
def LocalOK (g : Graph ℝ) (c : ℝ → Nat → List ℝ) (t : Nat) : Prop :=
  Smooth g c t ∧ ∀ G : Tensor ℝ, G.shape = g.shape t →
    pair g c t G = (((g.ctx t).inputs.zip (nodeVjp realScalar g t G)).map fun p => pair g c p.1 p.2).sum

variable {g : Graph ℝ} {c : ℝ → Nat → List ℝ} {c' : Nat → List ℝ}

theorem Curve.wf (hc : Curve g c c') (h : WF g) (τ : ℝ) : WF (withData g (c τ)) := by
  refine withData_wf h fun i hi hcx => ?_
  have hok := h i hi
  unfold NodeOK at hok
  rw [show (g.nd i).ctx = g.ctx i from rfl, hcx] at hok
  obtain ⟨l, h1, h2, _⟩ := hok
  rw [hc.start i hi hcx] at h1
  cases h1
  rw [hc.length i hi hcx τ]; exact h2

theorem Curve.zero (hc : Curve g c c') : withData g (c 0) = g := withData_self hc.start

theorem local_lin (hc : Curve g c c') (h : WF g) (hnn : NN g) {t x : Nat} (ht : t < g.length) (hgn : GradNode g t) (hl : LinearIn x (g.ctx t)) (hx : Smooth g c x) : LocalOK g c t := by
  obtain ⟨R, hR⟩ := lin_rel realRing h hnn ht hgn hl
  have hxl : x < g.length := by
    have := h.inputs_lt ht x (by rw [(vjp_lin realScalar hl ⟨[], fun _ => 0⟩).1]; simp)
    omega
  have hel : ∀ idx, ValidIdx (g.shape t) idx → elemAt g c t idx = fun τ => ∑ j ∈ idxs (g.shape x), if R idx j then elemAt g c x j τ else 0 := by
    intro idx hi
    funext τ
    have hw := hc.wf h τ
    unfold elemAt
    rw [den_lin realScalar hw (t := t) (x := x) (by rwa [withData_length]) (by rwa [withData_ctx]), withData_ctx]
    exact hR.fwd _ (by rw [den_shape _ hw (by rwa [withData_length]), withData_shape]) idx hi
  obtain ⟨s1, s2⟩ := smooth_of (g := g) (c := c) (i := t) (D := fun idx => ∑ j ∈ idxs (g.shape x), if R idx j then tangent g c x j else 0) fun idx hi => by
    rw [hel idx hi]
    refine HasDerivAt.fun_sum fun j hj => ?_
    by_cases hr : R idx j
    · simp only [hr, if_true]; exact hx j (mem_idxs.1 hj)
    · simp only [hr, if_false]; exact hasDerivAt_const _ _
  refine ⟨s1, fun G hG => ?_⟩
  obtain ⟨e1, e2⟩ := vjp_lin realScalar hl G
  rw [e1, e2]
  simp only [List.zip_cons_cons, List.zip_nil_left, List.map_cons, List.map_nil, List.sum_cons, List.sum_nil, add_zero]
  have := hR.adjoint (X := ⟨g.shape x, tangent g c x⟩) (G := G) rfl hG
  unfold pair
  rw [← this]
  refine Finset.sum_congr rfl fun i hi => ?_
  rw [s2 i (mem_idxs.1 hi), hR.fwd ⟨g.shape x, tangent g c x⟩ rfl i (mem_idxs.1 hi)]

theorem local_unary (hc : Curve g c c') (h : WF g) {t x : Nat} {op : Ops} (ht : t < g.length) (hcx : g.ctx t = .unary op x)
    (hd : InDomain (fun τ => withData g (c τ)) t) (hx : Smooth g c x) : LocalOK g c t := by
  have hok := h t ht
  unfold NodeOK at hok
  rw [show (g.nd t).ctx = g.ctx t from rfl, hcx] at hok
  obtain ⟨hxt, ho, e⟩ := hok
  have hst : g.shape t = g.shape x := (node_shape e).trans rfl
  have hel : ∀ idx, elemAt g c t idx = fun τ => realScalar.un op (elemAt g c x idx τ) := by
    intro idx
    funext τ
    have hw := hc.wf h τ
    unfold elemAt
    rw [den_eq realScalar hw (by rwa [withData_length])]
    unfold denStep denCtx
    rw [show ((withData g (c τ)).nd t).ctx = (withData g (c τ)).ctx t from rfl, withData_ctx, hcx]
    rfl
  have h0 : ∀ i idx, elemAt g c i idx 0 = (den realScalar g i).get idx := by intro i idx; unfold elemAt; rw [hc.zero]
  unfold InDomain at hd
  simp only [withData_ctx, hcx, hc.zero] at hd
  -- it is enough to give the derivative at every index
  suffices hh : ∃ D : List Int → ℝ, ∀ idx, ValidIdx (g.shape x) idx → HasDerivAt (fun τ => realScalar.un op (elemAt g c x idx τ)) (D idx) 0 ∧
      ∀ G : Tensor ℝ, G.get idx * D idx = (unaryVjp realScalar op (den realScalar g x) (den realScalar g t) G).get idx * tangent g c x idx by
    obtain ⟨D, hD⟩ := hh
    obtain ⟨s1, s2⟩ := smooth_of (g := g) (c := c) (i := t) (D := D) fun idx hi => by
      rw [hel idx]; exact (hD idx (by rwa [← hst])).1
    refine ⟨s1, fun G hG => ?_⟩
    unfold nodeVjp pair
    rw [hcx]
    simp only [Ctx.inputs, List.zip_cons_cons, List.zip_nil_left, List.map_cons, List.map_nil, List.sum_cons, List.sum_nil, add_zero]
    rw [← hst]
    refine Finset.sum_congr rfl fun i hi => ?_
    rw [s2 i (mem_idxs.1 hi)]
    exact (hD i (by rw [← hst]; exact mem_idxs.1 hi)).2 G
  have hval : ∀ idx, (den realScalar g t).get idx = realScalar.un op ((den realScalar g x).get idx) := by
    intro idx
    rw [← h0 t, hel]
    show realScalar.un op (elemAt g c x idx 0) = _
    rw [h0]
  cases op <;> first | exact absurd ho (by decide) | skip
  case Neg =>
    refine ⟨fun idx => -tangent g c x idx, fun idx hi => ⟨(hx idx hi).neg, fun G => ?_⟩⟩
    simp only [unaryVjp, Tensor.map, realScalar]; ring
  case Sin =>
    refine ⟨fun idx => Real.cos ((den realScalar g x).get idx) * tangent g c x idx, fun idx hi => ⟨?_, fun G => ?_⟩⟩
    · have := (hx idx hi).sin; rw [h0] at this; exact this
    · simp only [unaryVjp, Tensor.map, Tensor.zip, realScalar]; ring
  case Cos =>
    refine ⟨fun idx => -Real.sin ((den realScalar g x).get idx) * tangent g c x idx, fun idx hi => ⟨?_, fun G => ?_⟩⟩
    · have := (hx idx hi).cos; rw [h0] at this; exact this
    · simp only [unaryVjp, Tensor.map, Tensor.zip, realScalar]; ring
  case Exp =>
    refine ⟨fun idx => Real.exp ((den realScalar g x).get idx) * tangent g c x idx, fun idx hi => ⟨?_, fun G => ?_⟩⟩
    · have := (hx idx hi).exp; rw [h0] at this; exact this
    · simp only [unaryVjp, Tensor.zip, hval]; simp only [realScalar]; ring
  case Log =>
    refine ⟨fun idx => tangent g c x idx / (den realScalar g x).get idx, fun idx hi => ⟨?_, fun G => ?_⟩⟩
    · have := (hx idx hi).log (by rw [h0]; exact ne_of_gt (hd idx hi)); rw [h0] at this; exact this
    · simp only [unaryVjp, Tensor.zip, realScalar]; ring
  case Sqrt =>
    refine ⟨fun idx => tangent g c x idx / (2 * Real.sqrt ((den realScalar g x).get idx)), fun idx hi => ⟨?_, fun G => ?_⟩⟩
    · have := HasDerivAt.sqrt (hx idx hi) (by rw [h0]; exact ne_of_gt (hd idx hi)); rw [h0] at this; exact this
    · simp only [unaryVjp, Tensor.zip, Tensor.map, hval]; simp only [realScalar]; push_cast; ring

theorem local_binary (hc : Curve g c c') (h : WF g) (hnn : NN g) {t l r : Nat} {op : Ops} (ht : t < g.length) (hcx : g.ctx t = .binary op l r)
    (hd : InDomain (fun τ => withData g (c τ)) t) (hl : Smooth g c l) (hr : Smooth g c r) : LocalOK g c t := by
  have hok := h t ht
  unfold NodeOK at hok
  rw [show (g.nd t).ctx = g.ctx t from rfl, hcx] at hok
  obtain ⟨hlt, hrt, ho, hlr, e⟩ := hok
  have hst : g.shape t = g.shape l := (node_shape e).trans rfl
  have hel : ∀ idx, elemAt g c t idx = fun τ => realScalar.bin op (elemAt g c l idx τ) (elemAt g c r idx τ) := by
    intro idx
    funext τ
    have hw := hc.wf h τ
    unfold elemAt
    rw [den_eq realScalar hw (by rwa [withData_length])]
    unfold denStep denCtx
    rw [show ((withData g (c τ)).nd t).ctx = (withData g (c τ)).ctx t from rfl, withData_ctx, hcx]
    rfl
  have h0 : ∀ i idx, elemAt g c i idx 0 = (den realScalar g i).get idx := by intro i idx; unfold elemAt; rw [hc.zero]
  unfold InDomain at hd
  simp only [withData_ctx, withData_shape, hcx, hc.zero] at hd
  have har := (hnn t ht).2
  rw [hcx] at har
  simp only [Arith, arith, List.mem_cons, List.not_mem_nil, or_false] at har
  suffices hh : ∃ D : List Int → ℝ, ∀ idx, ValidIdx (g.shape l) idx → HasDerivAt (fun τ => realScalar.bin op (elemAt g c l idx τ) (elemAt g c r idx τ)) (D idx) 0 ∧
      ∃ B1 B2 : Tensor ℝ → Tensor ℝ, (∀ G, binaryVjp realScalar op (den realScalar g l) (den realScalar g r) G = [B1 G, B2 G]) ∧
        ∀ G : Tensor ℝ, G.get idx * D idx = (B1 G).get idx * tangent g c l idx + (B2 G).get idx * tangent g c r idx by
    obtain ⟨D, hD⟩ := hh
    obtain ⟨s1, s2⟩ := smooth_of (g := g) (c := c) (i := t) (D := D) fun idx hi => by
      rw [hel idx]; exact (hD idx (by rwa [← hst])).1
    refine ⟨s1, fun G hG => ?_⟩
    have hlen : ∃ b1 b2, binaryVjp realScalar op (den realScalar g l) (den realScalar g r) G = [b1, b2] := by
      rcases har with rfl | rfl | rfl | rfl | rfl <;> exact ⟨_, _, rfl⟩
    obtain ⟨b1, b2, hb⟩ := hlen
    unfold nodeVjp pair
    rw [hcx]
    simp only [Ctx.inputs, hb, List.zip_cons_cons, List.zip_nil_left, List.map_cons, List.map_nil, List.sum_cons, List.sum_nil, add_zero]
    rw [← hlr, ← hst, ← Finset.sum_add_distrib]
    refine Finset.sum_congr rfl fun i hi => ?_
    rw [s2 i (mem_idxs.1 hi)]
    obtain ⟨_, B1, B2, q1, q2⟩ := hD i (by rw [← hst]; exact mem_idxs.1 hi)
    have := q1 G
    rw [hb] at this
    simp only [List.cons.injEq, and_true] at this
    rw [this.1, this.2]
    exact q2 G
  rcases har with rfl | rfl | rfl | rfl | rfl
  · refine ⟨fun idx => tangent g c l idx + tangent g c r idx, fun idx hi => ⟨(hl idx hi).add (hr idx (by rwa [← hlr])), _, _, fun G => rfl, fun G => ?_⟩⟩
    ring
  · refine ⟨fun idx => tangent g c l idx - tangent g c r idx, fun idx hi => ⟨(hl idx hi).sub (hr idx (by rwa [← hlr])), _, _, fun G => rfl, fun G => ?_⟩⟩
    simp only [Tensor.map, realScalar]; ring
  · refine ⟨fun idx => tangent g c l idx * (den realScalar g r).get idx + (den realScalar g l).get idx * tangent g c r idx, fun idx hi => ⟨?_, _, _, fun G => rfl, fun G => ?_⟩⟩
    · have := (hl idx hi).mul (hr idx (by rwa [← hlr])); rw [h0, h0] at this; exact this
    · simp only [Tensor.zip, realScalar]; ring
  · refine ⟨fun idx => (tangent g c l idx * (den realScalar g r).get idx - (den realScalar g l).get idx * tangent g c r idx) / (den realScalar g r).get idx ^ 2,
      fun idx hi => ⟨?_, _, _, fun G => rfl, fun G => ?_⟩⟩
    · have := (hl idx hi).div (hr idx (by rwa [← hlr])) (by rw [h0]; exact hd idx (by rwa [← hlr])); rw [h0, h0] at this; exact this
    · have hne := hd idx (by rwa [← hlr])
      simp only [Tensor.zip, Tensor.map, realScalar]
      push_cast
      rw [Real.rpow_two]
      field_simp
      ring
  · refine ⟨fun idx => (den realScalar g r).get idx * (den realScalar g l).get idx ^ ((den realScalar g r).get idx - 1) * tangent g c l idx
        + (den realScalar g l).get idx ^ (den realScalar g r).get idx * Real.log ((den realScalar g l).get idx) * tangent g c r idx,
      fun idx hi => ⟨?_, _, _, fun G => rfl, fun G => ?_⟩⟩
    · rcases hd idx hi with hp | ⟨p, hp, hne, _⟩
      · have := (hl idx hi).rpow (hr idx (by rwa [← hlr])) (by rw [h0]; exact hp)
        rw [h0, h0] at this
        refine this.congr_deriv ?_
        ring
      · have hpc : elemAt g c r idx = fun _ => p := funext hp
        have ht0 : tangent g c r idx = 0 := by unfold tangent; rw [hpc]; simp
        have hp0 : (den realScalar g r).get idx = p := by rw [← h0, hpc]
        have := HasDerivAt.rpow_const (p := p) (hl idx hi) (by rw [h0]; exact hne)
        rw [h0] at this
        rw [hpc]
        refine this.congr_deriv ?_
        beta_reduce
        rw [ht0, hp0]
        ring
    · simp only [Tensor.zip, Tensor.map, realScalar]
      push_cast
      ring

theorem local_const (hc : Curve g c c') (h : WF g) {t : Nat} (ht : t < g.length) (hcx : g.ctx t = .const) :
    Smooth g c t ∧ ∀ idx, ValidIdx (g.shape t) idx → tangent g c t idx = (Tensor.ofFlat 0 (g.shape t) (c' t)).get idx := by
  refine smooth_of fun idx _ => ?_
  have hel : elemAt g c t idx = fun τ => (c τ t).getD (ravel (g.shape t) idx).toNat 0 := by
    funext τ
    have hw := hc.wf h τ
    unfold elemAt
    rw [den_eq realScalar hw (by rwa [withData_length])]
    unfold denStep denCtx
    rw [show ((withData g (c τ)).nd t).ctx = (withData g (c τ)).ctx t from rfl, withData_ctx, hcx]
    simp only [withData_shape]
    rw [withData_nd g _ ht]
    unfold setVal
    rw [show (g.nd t).ctx = .const from hcx]
    simp only [Option.getD_some, Tensor.ofFlat]
    rw [show realScalar.ofInt 0 = 0 from Int.cast_zero]
    rfl
  rw [hel]
  exact hc.velocity t ht hcx _

theorem local_ok (hc : Curve g c c') (h : WF g) (hnn : NN g) {t : Nat} (ht : t < g.length) (hgn : GradNode g t) (hd : InDomain (fun τ => withData g (c τ)) t)
    (hi : ∀ x ∈ (g.ctx t).inputs, Smooth g c x) (hne : g.ctx t ≠ .const) : LocalOK g c t := by
  cases hcx : g.ctx t with
  | const => exact absurd hcx hne
  | unary op x => exact local_unary hc h ht hcx hd (hi x (by rw [hcx]; simp [Ctx.inputs]))
  | binary op l r => exact local_binary hc h hnn ht hcx hd (hi l (by rw [hcx]; simp [Ctx.inputs])) (hi r (by rw [hcx]; simp [Ctx.inputs]))
  | sum x _ _ | reshape x _ | broadcast x _ | slice x _ | transpose x _ | contiguous x | pad x _ _ _ | dilate x _ _ =>
    exact local_lin hc h hnn ht hgn (x := x) (by rw [hcx]; rfl) (hi x (by rw [hcx]; simp [Ctx.inputs]))

theorem reach_local (hc : Curve g c c') (h : WF g) (hnn : NN g) {y : Nat} (hy : y < g.length) (hb : BackwardOK g y)
    (hd : ∀ i, Reach g y i → InDomain (fun τ => withData g (c τ)) i) (i : Nat) : Reach g y i → Smooth g c i ∧ (g.ctx i ≠ .const → LocalOK g c i) := by
  induction i using Nat.strong_induction_on with
  | _ i ih =>
    intro hr
    have hil := Nat.lt_of_le_of_lt (hr.le h hy) hy
    by_cases hcx : g.ctx i = .const
    · exact ⟨(local_const hc h hil hcx).1, fun hne => absurd hcx hne⟩
    · have := local_ok hc h hnn hil (hb i hr) (hd i hr) (fun x hx => (ih x (h.inputs_lt hil x hx) (.step hr hx)).1) hcx
      exact ⟨this.1, fun _ => this⟩

/-- Pairing with a possibly missing gradient. -/
noncomputable def pairO (g : Graph ℝ) (c : ℝ → Nat → List ℝ) (i : Nat) (o : Option (Tensor ℝ)) : ℝ := (o.map (pair g c i)).getD 0

theorem pairO_add (i : Nat) (o : Option (Tensor ℝ)) (T : Tensor ℝ) : pairO g c i (addGrad realScalar o T) = pairO g c i o + pair g c i T := by
  cases o with
  | none => simp [addGrad, pairO]
  | some O =>
    simp only [addGrad, pairO, Option.map_some, Option.getD_some, pair, Tensor.zip, realScalar]
    rw [← Finset.sum_add_distrib]
    exact Finset.sum_congr rfl fun j _ => by ring

theorem pairO_foldl (i : Nat) : ∀ (l : List (Tensor ℝ)) (o : Option (Tensor ℝ)), pairO g c i (l.foldl (addGrad realScalar) o) = pairO g c i o + (l.map (pair g c i)).sum
  | [], o => by simp
  | T :: l, o => by rw [List.foldl_cons, pairO_foldl i l, pairO_add, List.map_cons, List.sum_cons, add_assoc]

theorem pairO_eq {i : Nat} {o p : Option (Tensor ℝ)} (h : OptEq o p) (hs : ∀ T, o = some T → T.shape = g.shape i) : pairO g c i o = pairO g c i p := by
  cases o <;> cases p <;> simp only [OptEq] at h <;> try exact h.elim
  · rfl
  · rename_i T U
    simp only [pairO, Option.map_some, Option.getD_some, pair]
    refine Finset.sum_congr rfl fun j hj => ?_
    rw [h.2 j (by rw [hs T rfl]; exact mem_idxs.1 hj)]

theorem sum_pick (g : Graph ℝ) (c : ℝ → Nat → List ℝ) (n : Nat) : ∀ (L : List (Nat × Tensor ℝ)), (∀ p ∈ L, p.1 < n) →
    ∑ i ∈ Finset.range n, (((L.filter fun p => p.1 = i).map (·.2)).map (pair g c i)).sum = (L.map fun p => pair g c p.1 p.2).sum
  | [], _ => by simp
  | p :: L, h => by
    have ih := sum_pick g c n L fun q hq => h q (by simp [hq])
    rw [List.map_cons, List.sum_cons, ← ih]
    have : ∀ i, ((((p :: L).filter fun q => q.1 = i).map (·.2)).map (pair g c i)).sum = (if i = p.1 then pair g c i p.2 else 0) + (((L.filter fun q => q.1 = i).map (·.2)).map (pair g c i)).sum := by
      intro i
      by_cases hi : p.1 = i
      · simp [hi]
      · simp [hi, Ne.symm hi]
    simp only [this]
    rw [Finset.sum_add_distrib, Finset.sum_ite_eq' (Finset.range n) p.1 (fun i => pair g c i p.2)]
    simp [h p (by simp)]

theorem sum_lists {α : Type} (n : Nat) (f : Nat → α → ℝ) : ∀ l : List α, ∑ i ∈ Finset.range n, (l.map (f i)).sum = (l.map fun t => ∑ i ∈ Finset.range n, f i t).sum
  | [] => by simp
  | a :: l => by simp only [List.map_cons, List.sum_cons]; rw [Finset.sum_add_distrib, sum_lists n f l]

theorem sum_flatMap {α β : Type} (f : α → List β) (h : β → ℝ) : ∀ l : List α, ((l.flatMap f).map h).sum = (l.map fun a => ((f a).map h).sum).sum
  | [] => rfl
  | a :: l => by simp [List.flatMap_cons, sum_flatMap f h l]

/-- The cancellation: what the leaves gained, paired with their tangents, is what the computed arrays started with, paired with theirs. -/
theorem telescope_any {w w' : World ℝ} (hc : Curve w.g c c') (h : WF w.g) (hnn : NN w.g) (hs : GradShapes w) {y : Nat} (hy : y < w.g.length) (hb : BackwardOK w.g y)
    (hd : ∀ i, Reach w.g y i → InDomain (fun τ => withData w.g (c τ)) i) {order : List Nat} (r : BwdRes realScalar w w' y order) :
    ∑ x ∈ leavesOf w.g y, pairO w.g c x (gradT realScalar w' x) = ∑ x ∈ leavesOf w.g y, pairO w.g c x (seedT realScalar w y x) +
      ∑ x ∈ computedOf w.g y, pairO w.g c x (seedT realScalar w y x) := by
  let n := w.g.length
  have hloc := reach_local hc h hnn hy hb hd
  have hlt : ∀ i, Reach w.g y i → i < n := fun i hi => Nat.lt_of_le_of_lt (hi.le h hy) hy
  have hsh : ∀ i < n, ∀ T, gradT realScalar w' i = some T → T.shape = w.g.shape i := by
    intro i hi T hT
    obtain ⟨k, hk, rfl⟩ := Option.map_eq_some_iff.1 hT
    have := r.step.gs i k hk
    rw [den_shape _ r.step.wf this.2.1, this.2.2, r.step.ext.shape hi]
  have hord : ∀ t ∈ order, Reach w.g y t ∧ w.g.ctx t ≠ .const := by
    intro t ht
    obtain ⟨h1, h2⟩ := (r.mem t).1 ht
    exact ⟨h1, fun e => h2 (by rw [e]; rfl)⟩
  have hone : ∀ t ∈ order, ∑ i ∈ Finset.range n, ((contribsW realScalar w.g (gradT realScalar w') i t).map (pair w.g c i)).sum = pairO w.g c t (gradT realScalar w' t) := by
    intro t ht
    obtain ⟨hrt, hnc⟩ := hord t ht
    have htl := hlt t hrt
    obtain ⟨k, hk⟩ := Option.isSome_iff_exists.1 (r.some t hrt)
    have hG : gradT realScalar w' t = some (den realScalar w'.g k) := by simp [gradT, hk]
    simp only [contribsW, hG, contribs]
    rw [sum_pick w.g c n _ (fun p hp => by have := h.inputs_lt htl p.1 (List.of_mem_zip hp).1; omega)]
    simp only [pairO, Option.map_some, Option.getD_some]
    exact ((hloc t hrt).2 hnc).2 _ (hsh t htl _ hG) |>.symm
  have hsum : ∀ i ∈ Finset.range n, pairO w.g c i (gradT realScalar w' i) = pairO w.g c i (seedT realScalar w y i) +
      (order.map fun t => ((contribsW realScalar w.g (gradT realScalar w') i t).map (pair w.g c i)).sum).sum := by
    intro i hi
    have hi := Finset.mem_range.1 hi
    rw [pairO_eq (r.sum i hi) (hsh i hi), pairO_foldl, sum_flatMap]
  have hall := Finset.sum_congr rfl hsum
  rw [Finset.sum_add_distrib, sum_lists] at hall
  rw [List.map_congr_left hone] at hall
  -- order as a set
  have hset : (order.map fun t => pairO w.g c t (gradT realScalar w' t)).sum =
      ∑ t ∈ (Finset.range n).filter (fun t => Reach w.g y t ∧ w.g.ctx t ≠ .const), pairO w.g c t (gradT realScalar w' t) := by
    rw [← List.sum_toFinset _ r.nodup]
    refine Finset.sum_congr ?_ fun _ _ => rfl
    ext t
    simp only [List.mem_toFinset, Finset.mem_filter, Finset.mem_range]
    refine ⟨fun ht => ⟨hlt t (hord t ht).1, hord t ht⟩, fun ⟨_, h1, h2⟩ => (r.mem t).2 ⟨h1, ?_⟩⟩
    cases hcx : w.g.ctx t <;> simp_all [Ctx.inputs]
  rw [hset] at hall
  -- split the range in leaves, computed, not reached
  have hsplit : ∀ f : Nat → ℝ, ∑ i ∈ Finset.range n, f i = ∑ i ∈ leavesOf w.g y, f i +
      (∑ i ∈ (Finset.range n).filter (fun t => Reach w.g y t ∧ w.g.ctx t ≠ .const), f i + ∑ i ∈ (Finset.range n).filter (fun t => ¬ Reach w.g y t), f i) := by
    intro f
    simp only [leavesOf, Finset.sum_filter]
    rw [← Finset.sum_add_distrib, ← Finset.sum_add_distrib]
    refine Finset.sum_congr rfl fun i _ => ?_
    by_cases h1 : Reach w.g y i <;> by_cases h2 : w.g.ctx i = .const <;> simp [h1, h2]
  rw [hsplit (fun i => pairO w.g c i (gradT realScalar w' i)), hsplit (fun i => pairO w.g c i (seedT realScalar w y i))] at hall
  have e2 : ∑ i ∈ (Finset.range n).filter (fun t => ¬ Reach w.g y t), pairO w.g c i (gradT realScalar w' i) =
      ∑ i ∈ (Finset.range n).filter (fun t => ¬ Reach w.g y t), pairO w.g c i (seedT realScalar w y i) := by
    refine Finset.sum_congr rfl fun i hi => ?_
    simp only [Finset.mem_filter] at hi
    unfold seedT
    rw [if_neg (fun (e : i = y ∧ w.grad y = none) => hi.2 (e.1 ▸ .refl))]
    unfold gradT
    rw [r.same i hi.2]
    cases hk : w.grad i with
    | none => rfl
    | some k => simp only [Option.map_some]; rw [den_ext realScalar r.step.ext r.step.wf (hs i k hk).2.1]
  rw [e2] at hall
  simp only [computedOf]
  linarith

/-- From a state without gradients on computed arrays the leaves gain the sum of the tangents of the root. -/
theorem telescope {w w' : World ℝ} (hc : Curve w.g c c') (h : WF w.g) (hnn : NN w.g) (hs : GradShapes w) {y : Nat} (hy : y < w.g.length) (hb : BackwardOK w.g y)
    (hd : ∀ i, Reach w.g y i → InDomain (fun τ => withData w.g (c τ)) i) {order : List Nat} (r : BwdRes realScalar w w' y order) (hy0 : w.grad y = none)
    (h0 : ∀ i, Reach w.g y i → w.g.ctx i ≠ .const → w.grad i = none) :
    ∑ x ∈ leavesOf w.g y, pairO w.g c x (gradT realScalar w' x) = ∑ x ∈ leavesOf w.g y, pairO w.g c x (gradT realScalar w x) + ∑ j ∈ idxs (w.g.shape y), tangent w.g c y j := by
  have hall := telescope_any hc h hnn hs hy hb hd r
  -- pointwise difference outside the order
  have hdiff : ∀ i ∈ leavesOf w.g y ∪ computedOf w.g y, pairO w.g c i (seedT realScalar w y i) =
      (if i = y then ∑ j ∈ idxs (w.g.shape y), tangent w.g c y j else 0) + pairO w.g c i (gradT realScalar w i) := by
    intro i hi
    unfold seedT
    by_cases hiy : i = y
    · subst hiy
      simp only [hy0, and_self, if_true, gradT, Option.map_none, pairO, Option.map_some, Option.getD_some, Option.getD_none, add_zero, pair]
      refine Finset.sum_congr rfl fun j _ => ?_
      have : oneOf realScalar (w.g.dtype i) = 1 := by unfold oneOf; split <;> simp [realScalar]
      rw [this, one_mul]
    · simp [hiy]
  have hmem : y ∈ leavesOf w.g y ∨ y ∈ computedOf w.g y := by
    by_cases hcy : w.g.ctx y = .const
    · left; simp [leavesOf, hy, hcy, Reach.refl]
    · right; simp [computedOf, hy, hcy, Reach.refl]
  have hdis : Disjoint (leavesOf w.g y) (computedOf w.g y) := by
    rw [Finset.disjoint_left]
    intro i h1 h2
    simp only [leavesOf, computedOf, Finset.mem_filter] at h1 h2
    exact h2.2.2 h1.2.2
  have e1 : ∑ i ∈ computedOf w.g y, pairO w.g c i (gradT realScalar w i) = 0 := by
    refine Finset.sum_eq_zero fun i hi => ?_
    simp only [computedOf, Finset.mem_filter] at hi
    simp [gradT, h0 i hi.2.1 hi.2.2, pairO]
  rw [hall, ← Finset.sum_union hdis, Finset.sum_congr rfl hdiff, Finset.sum_add_distrib, Finset.sum_ite_eq' _ y, if_pos (Finset.mem_union.2 hmem), Finset.sum_union hdis, e1]
  ring

end Whale
