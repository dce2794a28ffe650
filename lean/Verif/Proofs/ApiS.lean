import Verif.Proofs.Api
import Verif.Model.History
/-
Every array-creating operation keeps all shapes non-negative; shape of the result.
-/
namespace Whale
variable {V : Type}

/-- The operators the public API offers. -/
def arith : List Ops := [.Add, .Sub, .Mul, .Truediv, .Pow]

def Arith : Ctx → Prop
  | .binary op _ _ => op ∈ arith
  | _ => True

theorem arith_isBinary {op : Ops} (h : op ∈ arith) : op.isBinary = true := by
  simp only [arith, List.mem_cons, List.not_mem_nil, or_false] at h
  rcases h with rfl | rfl | rfl | rfl | rfl <;> decide

/-- All shapes of the heap are non-negative, all operators are public ones. -/
def NN (g : Graph V) : Prop := ∀ i < g.length, NonNeg (g.shape i) ∧ Arith (g.ctx i)

/-- `r` was made in `g'` (extending `g`) with shape `s`. -/
structure MadeS (g g' : Graph V) (r : Nat) (s : List Int) : Prop extends Made g g' r where
  nn : NN g'
  shape : g'.shape r = s

theorem NN.push {g : Graph V} {n : Node V} (h : NN g) (hn : NonNeg n.shape) (ha : Arith n.ctx := by trivial) : NN (g ++ [n]) := by
  intro i hi
  by_cases he : i = g.length
  · subst he; simpa [Graph.shape, Graph.ctx, nd_push] using ⟨hn, ha⟩
  · rw [(Ext.push g n).shape (by simp at hi; omega), (Ext.push g n).ctx (by simp at hi; omega)]
    exact h i (by simp at hi; omega)

theorem shape_push (g : Graph V) (n : Node V) : Graph.shape (g ++ [n]) g.length = n.shape := by simp [Graph.shape, nd_push]

theorem madeS_push {g : Graph V} {n : Node V} (h : WF g) (hn : NodeOK g g.length n) (hnn : NN g) (hs : NonNeg n.shape) (har : Arith n.ctx := by trivial) :
    MadeS g (g ++ [n]) g.length n.shape := ⟨made_push h hn, hnn.push hs har, shape_push g n⟩

theorem madeS_refl {g : Graph V} {a : Nat} (h : WF g) (ha : a < g.length) (hnn : NN g) : MadeS g g a (g.shape a) := ⟨made_refl h ha, hnn, rfl⟩

theorem MadeS.trans {g g' g'' : Graph V} {r r' : Nat} {s s' : List Int} (h : MadeS g g' r s) (k : MadeS g' g'' r' s') : MadeS g g'' r' s' :=
  ⟨⟨h.ext.trans k.ext, k.wf, k.lt⟩, k.nn, k.shape⟩

/-- Facts about an old array survive. -/
theorem MadeS.old {g g' : Graph V} {r : Nat} {s : List Int} (h : MadeS g g' r s) {i : Nat} (hi : i < g.length) :
    i < g'.length ∧ g'.shape i = g.shape i ∧ ∀ A : Scalar V, den A g' i = den A g i :=
  ⟨Nat.lt_of_lt_of_le hi h.ext.length, h.ext.shape hi, fun A => den_ext A h.ext h.wf hi⟩

theorem unary_s {g : Graph V} (h : WF g) (hnn : NN g) {a : Nat} (ha : a < g.length) {op : Ops} (ho : op.isUnary = true) :
    MadeS g (ND.unary g op a).2 (ND.unary g op a).1 (g.shape a) ∧
    ∀ A : Scalar V, den A (ND.unary g op a).2 (ND.unary g op a).1 = (den A g a).map (A.un op) :=
  ⟨⟨(unary_made h ha ho).1, hnn.push (hnn a ha).1, shape_push g _⟩, (unary_made h ha ho).2⟩

theorem broadcast_s {g : Graph V} (h : WF g) (hnn : NN g) {a : Nat} (ha : a < g.length) {s : List Int} (hb : BroadcastsTo (g.shape a) s) (hs : NonNeg s) :
    MadeS g (ND.broadcastTo g a s).2 (ND.broadcastTo g a s).1 s ∧
    ∀ A : Scalar V, den A (ND.broadcastTo g a s).2 (ND.broadcastTo g a s).1 = (den A g a).broadcastTo s :=
  ⟨⟨(broadcast_made h ha hb).1, hnn.push hs, shape_push g _⟩, (broadcast_made h ha hb).2⟩

theorem NonNeg.replicate (n : Nat) {s : List Int} (h : NonNeg s) : NonNeg (List.replicate n 1 ++ s) := by
  intro x hx
  rcases List.mem_append.1 hx with hx | hx
  · rw [(List.mem_replicate.1 hx).2]; omega
  · exact h x hx

theorem broadcastDims_nn {l1 l2 r : List Int} (h1 : NonNeg l1) (h2 : NonNeg l2) (h : ND.broadcastDims l1 l2 = .ok r) : NonNeg r := by
  induction l1 generalizing l2 r with
  | nil =>
    cases l2 <;> simp only [ND.broadcastDims, pure, Except.pure, Except.ok.injEq] at h <;> subst h <;> intro x hx <;> simp at hx
  | cons a l1 ih =>
    cases l2 with
    | nil => simp only [ND.broadcastDims, pure, Except.pure, Except.ok.injEq] at h; subst h; intro x hx; simp at hx
    | cons b l2 =>
      have ha := h1 a (by simp)
      have hb := h2 b (by simp)
      have key : ∀ d, 0 ≤ d → (ND.broadcastDims l1 l2 >>= fun v => pure (d :: v)) = Except.ok r → NonNeg r := by
        intro d hd0 h
        cases hr : ND.broadcastDims l1 l2 with
        | error e => rw [hr] at h; cases h
        | ok r' =>
          rw [hr] at h
          cases h
          intro x hx
          rcases List.mem_cons.1 hx with rfl | hx
          · exact hd0
          · exact ih (fun y hy => h1 y (by simp [hy])) (fun y hy => h2 y (by simp [hy])) hr x hx
      unfold ND.broadcastDims at h
      by_cases c1 : a = b
      · rw [if_pos c1] at h; exact key a ha h
      · rw [if_neg c1] at h
        by_cases c2 : a = 1
        · rw [if_pos c2] at h; exact key b hb h
        · rw [if_neg c2] at h
          by_cases c3 : b = 1
          · rw [if_pos c3] at h; exact key a ha h
          · rw [if_neg c3] at h; cases h

theorem broadcastShapes_nn {s1 s2 r : List Int} (h1 : NonNeg s1) (h2 : NonNeg s2) (h : ND.broadcastShapes s1 s2 = .ok r) : NonNeg r :=
  broadcastDims_nn (h1.replicate _) (h2.replicate _) h

theorem maybe_broadcast_s {g : Graph V} (h : WF g) (hnn : NN g) {a : Nat} (ha : a < g.length) {s : List Int} (hb : BroadcastsTo (g.shape a) s) (hs : NonNeg s) :
    ∃ l g', (if g.shape a ≠ s then ND.broadcastTo g a s else (a, g)) = (l, g') ∧ MadeS g g' l s ∧
      ∀ A : Scalar V, (den A g' l).Equiv ((den A g a).broadcastTo s) := by
  by_cases hc : g.shape a = s
  · refine ⟨a, g, by simp [hc], ⟨made_refl h ha, hnn, hc⟩, fun A => ?_⟩
    have := broadcastTo_self (den A g a)
    rw [den_shape A h ha, hc] at this
    exact ⟨this.1.symm, fun idx hi => (this.2 idx (by rw [this.1]; exact hi)).symm⟩
  · obtain ⟨m, d⟩ := broadcast_s h hnn ha hb hs
    exact ⟨(ND.broadcastTo g a s).1, (ND.broadcastTo g a s).2, if_pos hc, m, fun A => by rw [d A]; exact ⟨rfl, fun _ _ => rfl⟩⟩

theorem binary_s {g : Graph V} (h : WF g) (hnn : NN g) {a b : Nat} (ha : a < g.length) (hb : b < g.length) {op : Ops}
    (ho : op ∈ arith) {s : List Int} (hs : ND.broadcastShapes (g.shape a) (g.shape b) = .ok s) :
    ∃ r g', ND.binary g op a b = .ok (r, g') ∧ MadeS g g' r s ∧
      ∀ A : Scalar V, (den A g' r).Equiv (((den A g a).broadcastTo s).zip (A.bin op) ((den A g b).broadcastTo s)) := by
  have ⟨b1, b2, _⟩ := broadcastShapes_ok hs
  have hsn := broadcastShapes_nn (hnn a ha).1 (hnn b hb).1 hs
  obtain ⟨l, g1, e1, m1, d1⟩ := maybe_broadcast_s h hnn ha b1 hsn
  have hb1 := (m1.old hb).1
  obtain ⟨r, g2, e2, m2, d2⟩ := maybe_broadcast_s m1.wf m1.nn hb1 (by rw [(m1.old hb).2.1]; exact b2) hsn
  have hl2 := m2.old m1.lt
  have hn : NodeOK g2 g2.length (ND.elemwiseNode g2 (.binary op l r) l) :=
    ⟨hl2.1, m2.lt, arith_isBinary ho, by rw [hl2.2.1, m1.shape, m2.shape], rfl⟩
  have m3 := madeS_push m2.wf hn m2.nn (by simp only [ND.elemwiseNode]; exact (m2.nn l hl2.1).1) ho
  have hsh : (ND.elemwiseNode g2 (.binary op l r) l).shape = s := by simp only [ND.elemwiseNode]; rw [hl2.2.1, m1.shape]
  rw [hsh] at m3
  refine ⟨_, _, ?_, (m1.trans m2).trans m3, fun A => ?_⟩
  · simp only [ND.binary, ND.broadcasted, hs, bind, Except.bind, e1, e2, pure, Except.pure, Graph.push]
  · rw [den_push A m2.wf hn]
    have d1' := d1 A
    have d2' := d2 A
    rw [(m1.old hb).2.2 A] at d2'
    simp only [denCtx, ND.elemwiseNode]
    rw [hl2.2.2 A]
    refine Tensor.Equiv.zip _ d1' d2' ?_
    rw [d1'.1, d2'.1]; rfl

theorem broadcastDims_self (s : List Int) : ND.broadcastDims s s = .ok s := by
  induction s with
  | nil => rfl
  | cons a s ih => simp [ND.broadcastDims, ih, bind, Except.bind, pure, Except.pure]

theorem broadcastShapes_self (s : List Int) : ND.broadcastShapes s s = .ok s := by
  simp [ND.broadcastShapes, broadcastDims_self]

theorem broadcastDims_ones (s : List Int) : ND.broadcastDims s (List.replicate s.length 1) = .ok s := by
  induction s with
  | nil => rfl
  | cons a s ih =>
    simp only [ND.broadcastDims, List.length_cons, List.replicate_succ, ih, bind, Except.bind, pure, Except.pure]
    by_cases h : a = 1 <;> simp [h]

theorem broadcastShapes_scalar (s : List Int) : ND.broadcastShapes s [] = .ok s := by
  simp [ND.broadcastShapes, broadcastDims_ones]

/-- Operands of the same shape: no broadcast. -/
theorem binary_same {g : Graph V} (h : WF g) (hnn : NN g) {a b : Nat} (ha : a < g.length) (hb : b < g.length) {op : Ops}
    (ho : op ∈ arith) (hs : g.shape a = g.shape b) :
    ∃ r g', ND.binary g op a b = .ok (r, g') ∧ MadeS g g' r (g.shape a) ∧
      ∀ A : Scalar V, den A g' r = (den A g a).zip (A.bin op) (den A g b) := by
  have hn : NodeOK g g.length (ND.elemwiseNode g (.binary op a b) a) := ⟨ha, hb, arith_isBinary ho, hs, rfl⟩
  refine ⟨g.length, g ++ [ND.elemwiseNode g (.binary op a b) a], ?_, madeS_push h hn hnn (hnn a ha).1 ho, fun A => by rw [den_push A h hn]; rfl⟩
  simp [ND.binary, ND.broadcasted, ← hs, broadcastShapes_self, bind, Except.bind, pure, Except.pure, Graph.push]

theorem constScalar_s (A : Scalar V) {g : Graph V} (h : WF g) (hnn : NN g) (v : V) :
    MadeS g (ND.constScalar A g v).2 (ND.constScalar A g v).1 [] ∧
    ∀ B : Scalar V, den B (ND.constScalar A g v).2 (ND.constScalar A g v).1 = .ofFlat (B.ofInt 0) [] [v] := by
  have := const_made A h (s := []) (l := [v]) (by intro x hx; simp at hx) (by simp [prod])
  exact ⟨⟨this.1, hnn.push (by intro x hx; simp [ND.constNode] at hx), shape_push g _⟩, this.2⟩

/-- An array with a number on the right. -/
theorem binary_scalar (B : Scalar V) {g : Graph V} (h : WF g) (hnn : NN g) {a : Nat} (ha : a < g.length) {op : Ops} (ho : op ∈ arith) (v : V) :
    ∃ r g', ND.binary (ND.constScalar B g v).2 op a (ND.constScalar B g v).1 = .ok (r, g') ∧ MadeS g g' r (g.shape a) ∧
      ∀ A : Scalar V, (den A g' r).Equiv ((den A g a).map fun x => A.bin op x v) := by
  obtain ⟨m1, d1⟩ := constScalar_s B h hnn v
  have ho1 := m1.old ha
  obtain ⟨r, g', e, m2, d2⟩ := binary_s (a := a) (b := (ND.constScalar B g v).1) m1.wf m1.nn ho1.1 m1.lt ho (s := g.shape a)
    (by rw [ho1.2.1, m1.shape]; exact broadcastShapes_scalar _)
  refine ⟨r, g', e, m1.trans m2, fun A => ?_⟩
  obtain ⟨s2, v2⟩ := d2 A
  refine ⟨by rw [s2]; simp [Tensor.zip, Tensor.broadcastTo, Tensor.map, den_shape A h ha], fun idx hi => ?_⟩
  rw [v2 idx hi, d1 A, ho1.2.2 A]
  have hi' : ValidIdx (g.shape a) idx := by rw [s2] at hi; exact hi
  simp [Tensor.zip, Tensor.broadcastTo, Tensor.map, Tensor.ofFlat, den_shape A h ha, bcastIdx_self hi', ravel]

theorem sumShape_nn {s : List Int} (h : NonNeg s) (ax : List Nat) (kd : Bool) : NonNeg (Tensor.sumShape ax kd s) := by
  intro x hx
  unfold Tensor.sumShape at hx
  cases kd with
  | true =>
    simp only [if_true, List.mem_map] at hx
    obtain ⟨p, hp, rfl⟩ := hx
    split
    · omega
    · exact h _ (List.fst_mem_of_mem_zipIdx hp)
  | false =>
    simp only [Bool.false_eq_true, if_false, List.mem_map, List.mem_filter] at hx
    obtain ⟨p, ⟨hp, _⟩, rfl⟩ := hx
    exact h _ (List.fst_mem_of_mem_zipIdx hp)

theorem sum_s {g : Graph V} (h : WF g) (hnn : NN g) {a : Nat} (ha : a < g.length) {ax : AxisArg} {kd : Bool} {l : List Nat}
    (hl : ND.normAxis (g.ndim a) ax = .ok l) :
    ∃ r g', ND.sum g a ax kd = .ok (r, g') ∧ MadeS g g' r (Tensor.sumShape l kd (g.shape a)) ∧ ∀ A : Scalar V, den A g' r = (den A g a).sum A l kd := by
  have hn : NodeOK g g.length (ND.reduceNode g a l kd) := ⟨ha, normAxis_lt hl, rfl⟩
  refine ⟨_, _, ?_, madeS_push h hn hnn (sumShape_nn (hnn a ha).1 l kd), fun A => den_push A h hn⟩
  simp [ND.sum, hl, bind, Except.bind, pure, Except.pure, Graph.push]

theorem sliceShape_nn (subs : List Sub) : NonNeg (Tensor.sliceShape subs) := by
  induction subs with
  | nil => intro x hx; simp [Tensor.sliceShape] at hx
  | cons s subs ih => cases s with
    | int i => exact ih
    | slice a b c =>
      intro x hx
      rcases List.mem_cons.1 hx with rfl | hx
      · simp only [Tensor.sliceLen]; omega
      · exact ih x hx

theorem getitem_s {g : Graph V} (h : WF g) (hnn : NN g) {a : Nat} (ha : a < g.length) {rs : List RawSub}
    (hlen : rs.length ≤ g.ndim a) {subs : List Sub}
    (hs : ND.normSubs (g.shape a) (rs ++ List.replicate (g.ndim a - rs.length) (RawSub.slice none none none)) = .ok subs) :
    ∃ r g', ND.getitem g a rs = .ok (r, g') ∧ MadeS g g' r (Tensor.sliceShape subs) ∧ SubsOK (g.shape a) subs ∧
      ∀ A : Scalar V, den A g' r = (den A g a).slice subs := by
  have hok := normSubs_ok (hnn a ha).1 (by simp [Graph.ndim] at *; omega) hs
  have hn : NodeOK g g.length (ND.sliceNode g a subs) := ⟨ha, hok, rfl⟩
  have hsh : (ND.sliceNode g a subs).shape = Tensor.sliceShape subs := by
    simp only [ND.sliceNode]
    exact sliceLayout_shape (by rw [h.strides_length ha, hok.length])
  have m := madeS_push h hn hnn (by rw [hsh]; exact sliceShape_nn subs)
  rw [hsh] at m
  refine ⟨_, _, ?_, m, hok, fun A => den_push A h hn⟩
  simp only [ND.getitem, bind, Except.bind, pure, Except.pure, Graph.push, hs]
  rw [if_neg (by omega)]

theorem transpose_s {g : Graph V} (h : WF g) (hnn : NN g) {a : Nat} (ha : a < g.length) {axes : List Int}
    (hp : axes.pySort = (List.range (g.ndim a)).map Int.ofNat) :
    ∃ r g', ND.transpose g a axes = .ok (r, g') ∧ MadeS g g' r ((axes.map Int.toNat).map (geti (g.shape a))) ∧
      ∀ A : Scalar V, den A g' r = (den A g a).transpose (axes.map Int.toNat) := by
  have hn : NodeOK g g.length (ND.transposeNode g a (axes.map Int.toNat)) := ⟨ha, perm_of_sorted_axes hp, rfl⟩
  refine ⟨_, _, ?_, madeS_push h hn hnn ?_, fun A => den_push A h hn⟩
  · simp only [ND.transpose, bind, Except.bind, pure, Except.pure, Graph.push, hp]; simp
  · intro x hx
    simp only [ND.transposeNode, List.mem_map] at hx
    obtain ⟨k, hk, rfl⟩ := hx
    obtain ⟨y, hy, rfl⟩ := hk
    unfold geti
    rw [List.getD_eq_getElem?_getD]
    cases hg : (g.shape a)[y.toNat]? with
    | none => simp
    | some v => simpa [hg] using (hnn a ha).1 v (List.mem_of_getElem? hg)

theorem contiguous_s {g : Graph V} (h : WF g) (hnn : NN g) {a : Nat} (ha : a < g.length) :
    MadeS g (ND.contiguous g a).2 (ND.contiguous g a).1 (g.shape a) ∧
    (ND.contiguous g a).2.strides (ND.contiguous g a).1 = stridesFromShape (g.shape a) ∧
    ∀ A : Scalar V, den A (ND.contiguous g a).2 (ND.contiguous g a).1 = den A g a := by
  have ⟨m, sh, st, d⟩ := contiguous_made h ha
  refine ⟨⟨m, ?_, sh⟩, st, d⟩
  unfold ND.contiguous
  split
  · exact hnn
  · exact hnn.push (hnn a ha).1

theorem reshape_s {g : Graph V} (h : WF g) (hnn : NN g) {a : Nat} (ha : a < g.length) {s : List Int} (hs : prod s = prod (g.shape a)) (hsn : NonNeg s) :
    ∃ r g', ND.reshape g a s = .ok (r, g') ∧ MadeS g g' r s ∧ ∀ A : Scalar V, den A g' r = (den A g a).reshape s := by
  have ⟨m, st, d⟩ := contiguous_s h hnn ha
  rcases hcc : ND.contiguous g a with ⟨c, g1⟩
  rw [hcc] at m st d
  simp only at m st d
  have hn : NodeOK g1 g1.length (ND.reshapeNode g1 c s) :=
    ⟨m.lt, by rw [m.shape]; exact hs, hsn, by rw [m.shape]; exact (hnn a ha).1, by rw [st, m.shape], rfl⟩
  have m2 := madeS_push m.wf hn m.nn hsn
  refine ⟨_, _, ?_, m.trans m2, fun A => ?_⟩
  · simp [ND.reshape, hs, hcc, bind, Except.bind, pure, Except.pure, Graph.push]
  · rw [den_push A m.wf hn]
    simp only [denCtx, ND.reshapeNode]
    rw [d A]

theorem NonNeg.set {s : List Int} (h : NonNeg s) {d : Nat} {v : Int} (hv : 0 ≤ v) : NonNeg (s.set d v) := by
  intro x hx
  rcases List.mem_or_eq_of_mem_set hx with hx | rfl
  · exact h x hx
  · exact hv

theorem pad_s {g : Graph V} (h : WF g) (hnn : NN g) {a : Nat} (ha : a < g.length) {dim b c : Int} (h0 : 0 ≤ dim) (h1 : dim < g.ndim a)
    (hr : 0 ≤ geti (g.shape a) dim.toNat + (b + c)) :
    ∃ r g', ND.pad g a dim b c = .ok (r, g') ∧ MadeS g g' r ((g.shape a).set dim.toNat (geti (g.shape a) dim.toNat + (b + c))) ∧
      ∀ A : Scalar V, (den A g' r).Equiv ((den A g a).pad A dim.toNat b c) := by
  unfold ND.pad
  rw [if_neg (by omega)]
  by_cases hz : b = 0 ∧ c = 0
  · rw [if_pos hz]
    obtain ⟨rfl, rfl⟩ := hz
    have hd : dim.toNat < (g.shape a).length := by simp only [Graph.ndim] at h1; omega
    have hsh : (g.shape a).set dim.toNat (geti (g.shape a) dim.toNat + (0 + 0)) = g.shape a := by
      apply ext_geti (by simp)
      intro k _; rw [geti_set]; split <;> simp_all
    refine ⟨a, g, rfl, by rw [hsh]; exact madeS_refl h ha hnn, fun A => ?_⟩
    have := pad_zero_equiv A (den A g a) dim.toNat (by rw [den_shape A h ha]; exact hd)
    exact ⟨this.1.symm, fun idx hi => (this.2 idx (by rw [this.1]; exact hi)).symm⟩
  · rw [if_neg hz, pyPos_nonneg h0 h1]
    have hn : NodeOK g g.length (ND.padNode g a dim.toNat dim b c) := ⟨ha, ⟨h0, h1⟩, rfl⟩
    exact ⟨_, _, rfl, madeS_push h hn hnn ((hnn a ha).1.set hr), fun A => by
      show (den A (g ++ [_]) g.length).Equiv _
      rw [den_push A h hn]; exact ⟨rfl, fun _ _ => rfl⟩⟩

theorem dilate_s {g : Graph V} (h : WF g) (hnn : NN g) {a : Nat} (ha : a < g.length) {dim st : Int} (h0 : 0 ≤ dim) (h1 : dim < g.ndim a)
    (hst : 1 ≤ st) (hr : 0 ≤ (geti (g.shape a) dim.toNat - 1) * st + 1) :
    ∃ r g', ND.dilate g a dim st = .ok (r, g') ∧ MadeS g g' r ((g.shape a).set dim.toNat ((geti (g.shape a) dim.toNat - 1) * st + 1)) ∧
      ∀ A : Scalar V, (den A g' r).Equiv ((den A g a).dilate A dim.toNat st) := by
  unfold ND.dilate
  rw [if_neg (by omega)]
  by_cases hz : st = 1
  · rw [if_pos hz]
    subst hz
    have hd : dim.toNat < (g.shape a).length := by simp only [Graph.ndim] at h1; omega
    have hsh : (g.shape a).set dim.toNat ((geti (g.shape a) dim.toNat - 1) * 1 + 1) = g.shape a := by
      apply ext_geti (by simp)
      intro k _; rw [geti_set]; split <;> simp_all
    refine ⟨a, g, rfl, by rw [hsh]; exact madeS_refl h ha hnn, fun A => ?_⟩
    have := dilate_one_equiv A (den A g a) dim.toNat (by rw [den_shape A h ha]; exact hd)
    exact ⟨this.1.symm, fun idx hi => (this.2 idx (by rw [this.1]; exact hi)).symm⟩
  · rw [if_neg hz, pyPos_nonneg h0 h1]
    have hn : NodeOK g g.length (ND.dilateNode g a dim.toNat dim st) := ⟨ha, ⟨h0, h1⟩, hst, rfl⟩
    exact ⟨_, _, rfl, madeS_push h hn hnn ((hnn a ha).1.set hr), fun A => by
      show (den A (g ++ [_]) g.length).Equiv _
      rw [den_push A h hn]; exact ⟨rfl, fun _ _ => rfl⟩⟩

theorem const_s (A : Scalar V) {g : Graph V} (h : WF g) (hnn : NN g) {s : List Int} {l : List V} (hs : NonNeg s) (hl : (l.length : Int) = prod s) :
    MadeS g (ND.const A g s l).2 (ND.const A g s l).1 s ∧
    ∀ B : Scalar V, den B (ND.const A g s l).2 (ND.const A g s l).1 = .ofFlat (B.ofInt 0) s l :=
  ⟨⟨(const_made A h hs hl).1, hnn.push hs, shape_push g _⟩, (const_made A h hs hl).2⟩

end Whale
