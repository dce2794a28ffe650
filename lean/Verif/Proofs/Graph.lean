import Verif.Proofs.Index
import Verif.Spec.Denote
import Verif.Spec.WellFormed
/-
Heap extension, stability of well-formedness and of meanings.
-/
namespace Whale
variable {V : Type}

/-- `g'` extends `g`: same arrays, possibly more. -/
def Ext (g g' : Graph V) : Prop := g <+: g'

theorem Ext.refl (g : Graph V) : Ext g g := List.prefix_refl g
theorem Ext.trans {g h k : Graph V} (a : Ext g h) (b : Ext h k) : Ext g k := List.IsPrefix.trans a b
theorem Ext.push (g : Graph V) (n : Node V) : Ext g (g ++ [n]) := List.prefix_append _ _
theorem Ext.length {g g' : Graph V} (h : Ext g g') : g.length ≤ g'.length := List.IsPrefix.length_le h

theorem Ext.nd {g g' : Graph V} (h : Ext g g') {i : Nat} (hi : i < g.length) : g'.nd i = g.nd i := by
  obtain ⟨l, rfl⟩ := h
  simp [Graph.nd, List.getD_eq_getElem?_getD, List.getElem?_append_left hi]

theorem nd_push (g : Graph V) (n : Node V) : Graph.nd (g ++ [n]) g.length = n := by
  simp [Graph.nd, List.getD_eq_getElem?_getD]

theorem Ext.shape {g g' : Graph V} (h : Ext g g') {i : Nat} (hi : i < g.length) : g'.shape i = g.shape i := by
  simp [Graph.shape, h.nd hi]
theorem Ext.strides {g g' : Graph V} (h : Ext g g') {i : Nat} (hi : i < g.length) : g'.strides i = g.strides i := by
  simp [Graph.strides, h.nd hi]
theorem Ext.offset {g g' : Graph V} (h : Ext g g') {i : Nat} (hi : i < g.length) : g'.offset i = g.offset i := by
  simp [Graph.offset, h.nd hi]
theorem Ext.dtype {g g' : Graph V} (h : Ext g g') {i : Nat} (hi : i < g.length) : g'.dtype i = g.dtype i := by
  simp [Graph.dtype, h.nd hi]
theorem Ext.ctx {g g' : Graph V} (h : Ext g g') {i : Nat} (hi : i < g.length) : g'.ctx i = g.ctx i := by
  simp [Graph.ctx, h.nd hi]
theorem Ext.ndim {g g' : Graph V} (h : Ext g g') {i : Nat} (hi : i < g.length) : g'.ndim i = g.ndim i := by
  simp [Graph.ndim, h.shape hi]

theorem NodeOK.inputs_lt {g : Graph V} {k : Nat} {n : Node V} (h : NodeOK g k n) : ∀ x ∈ n.ctx.inputs, x < k := by
  unfold NodeOK at h
  cases hc : n.ctx <;> rw [hc] at h <;> simp only [Ctx.inputs, List.mem_cons, List.not_mem_nil, or_false, forall_eq,
    forall_eq_or_imp, false_implies, implies_true] <;> simp_all

theorem elemwiseNode_ext {g g' : Graph V} (h : Ext g g') {x : Nat} (hx : x < g.length) (c : Ctx) :
    ND.elemwiseNode g' c x = ND.elemwiseNode g c x := by
  simp [ND.elemwiseNode, h.shape hx, h.dtype hx]

theorem NodeOK.ext {g g' : Graph V} (h : Ext g g') {k : Nat} (hk : k ≤ g.length) {n : Node V} :
    NodeOK g' k n ↔ NodeOK g k n := by
  unfold NodeOK
  cases n.ctx <;> dsimp only
  case const => exact Iff.rfl
  case binary op l r =>
    refine and_congr_right (fun hx => and_congr_right (fun hy => ?_))
    have hx := Nat.lt_of_lt_of_le hx hk
    have hy := Nat.lt_of_lt_of_le hy hk
    simp only [ND.elemwiseNode, h.shape hx, h.dtype hx, h.shape hy]
  all_goals
    refine and_congr_right (fun hx => ?_)
    have hx := Nat.lt_of_lt_of_le hx hk
    simp only [ND.elemwiseNode, ND.reduceNode, ND.reshapeNode, ND.broadcastNode, ND.sliceNode, ND.transposeNode,
      ND.padNode, ND.dilateNode, h.shape hx, h.strides hx, h.offset hx, h.dtype hx, h.ndim hx]

theorem WF.nil : WF ([] : Graph V) := by intro i hi; simp at hi

theorem WF.push {g : Graph V} {n : Node V} (h : WF g) (hn : NodeOK g g.length n) : WF (g ++ [n]) := by
  intro i hi
  simp only [List.length_append, List.length_cons, List.length_nil, Nat.zero_add] at hi
  by_cases he : i = g.length
  · subst he; rw [nd_push]; exact (NodeOK.ext (Ext.push g n) (Nat.le_refl _)).2 hn
  · have hi : i < g.length := by omega
    rw [(Ext.push g n).nd hi]
    exact (NodeOK.ext (Ext.push g n) (by omega)).2 (h i hi)

theorem WF.of_ext {g g' : Graph V} (h : Ext g g') (hw : WF g') : WF g := by
  intro i hi
  have := hw i (Nat.lt_of_lt_of_le hi h.length)
  rw [h.nd hi] at this
  exact (NodeOK.ext h (by omega)).1 this

theorem WF.inputs_lt {g : Graph V} (h : WF g) {i : Nat} (hi : i < g.length) : ∀ x ∈ (g.ctx i).inputs, x < i :=
  (h i hi).inputs_lt

/-- Enough fuel: the meaning does not depend on it. -/
theorem denF_fuel (A : Scalar V) {g : Graph V} (h : WF g) {i : Nat} (hi : i < g.length) {f1 f2 : Nat}
    (h1 : i < f1) (h2 : i < f2) : denF A g f1 i = denF A g f2 i := by
  induction i using Nat.strongRecOn generalizing f1 f2 with
  | ind i ih =>
    obtain ⟨f1, rfl⟩ : ∃ k, f1 = k + 1 := ⟨f1 - 1, by omega⟩
    obtain ⟨f2, rfl⟩ : ∃ k, f2 = k + 1 := ⟨f2 - 1, by omega⟩
    have hlt := h.inputs_lt hi
    simp only [denF]
    cases hc : g.ctx i <;> simp only [hc, Ctx.inputs, List.mem_cons, List.not_mem_nil, or_false, forall_eq,
      forall_eq_or_imp] at hlt ⊢
    case binary op l r =>
      rw [ih l hlt.1 (by omega) (f1 := f1) (f2 := f2) (by omega) (by omega),
        ih r hlt.2 (by omega) (f1 := f1) (f2 := f2) (by omega) (by omega)]
    all_goals
      rw [ih _ hlt (by omega) (f1 := f1) (f2 := f2) (by omega) (by omega)]

/-- One unfolding step of the meaning of a node, given the meanings of its inputs. -/
def denCtx (A : Scalar V) (D : Nat → Tensor V) (n : Node V) : Tensor V :=
    match n.ctx with
    | .const => .ofFlat (A.ofInt 0) n.shape (n.val.getD [])
    | .unary op x => (D x).map (A.un op)
    | .binary op l r => (D l).zip (A.bin op) (D r)
    | .sum x axis kd => (D x).sum A axis kd
    | .reshape x s => (D x).reshape s
    | .broadcast x s => (D x).broadcastTo s
    | .slice x subs => (D x).slice subs
    | .transpose x axes => (D x).transpose axes
    | .contiguous x => D x
    | .pad x dim b a => (D x).pad A dim.toNat b a
    | .dilate x dim st => (D x).dilate A dim.toNat st

/-- One unfolding step of the meaning of an array. -/
def denStep (A : Scalar V) (g : Graph V) (i : Nat) : Tensor V := denCtx A (den A g) (g.nd i)

theorem denCtx_congr (A : Scalar V) {D E : Nat → Tensor V} {n : Node V} (h : ∀ x ∈ n.ctx.inputs, D x = E x) :
    denCtx A D n = denCtx A E n := by
  unfold denCtx
  cases hc : n.ctx <;> simp_all [Ctx.inputs]

theorem den_eq (A : Scalar V) {g : Graph V} (h : WF g) {i : Nat} (hi : i < g.length) : den A g i = denStep A g i := by
  have hlt := h.inputs_lt hi
  unfold den denStep denCtx
  have hcd : (g.nd i).ctx = g.ctx i := rfl
  have hsd : (g.nd i).shape = g.shape i := rfl
  rw [hcd, hsd]
  simp only [denF]
  cases hc : g.ctx i <;> simp only [hc, Ctx.inputs, List.mem_cons, List.not_mem_nil, or_false, forall_eq,
      forall_eq_or_imp] at hlt ⊢
  case binary op l r =>
    rw [denF_fuel A h (i := l) (by omega) (f1 := i) (f2 := l + 1) (by omega) (by omega),
      denF_fuel A h (i := r) (by omega) (f1 := i) (f2 := r + 1) (by omega) (by omega)]
    rfl
  all_goals
    first
    | rw [denF_fuel A h (i := _) (by omega) (f1 := i) (f2 := _ + 1) hlt (Nat.lt_succ_self _)]; rfl

/-- Meanings never change when the heap grows. -/
theorem den_ext (A : Scalar V) {g g' : Graph V} (h : Ext g g') (hw : WF g') {i : Nat} (hi : i < g.length) :
    den A g' i = den A g i := by
  induction i using Nat.strongRecOn with
  | ind i ih =>
    have hwg := WF.of_ext h hw
    have hi' := Nat.lt_of_lt_of_le hi h.length
    rw [den_eq A hw hi', den_eq A hwg hi]
    have hlt := hwg.inputs_lt hi
    unfold denStep
    rw [h.nd hi]
    exact denCtx_congr A (fun x hx => ih x (hlt x hx) (Nat.lt_trans (hlt x hx) hi))

/-- Meaning of a freshly created array. -/
theorem den_push (A : Scalar V) {g : Graph V} {n : Node V} (h : WF g) (hn : NodeOK g g.length n) :
    den A (g ++ [n]) g.length = denCtx A (den A g) n := by
  have hw := h.push hn
  rw [den_eq A hw (by simp)]
  unfold denStep
  rw [nd_push]
  exact denCtx_congr A (fun x hx => den_ext A (Ext.push g n) hw (hn.inputs_lt x hx))

theorem SubsOK.length {s : List Int} {subs : List Sub} (h : SubsOK s subs) : subs.length = s.length := by
  induction s generalizing subs with
  | nil => cases subs <;> simp_all [SubsOK]
  | cons a s ih => cases subs with
    | nil => simp [SubsOK] at h
    | cons b r => cases b <;> simp only [SubsOK] at h <;> simp [ih h.2]

theorem sliceLayout_shape {strides : List Int} {subs : List Sub} (h : strides.length = subs.length) :
    (ND.sliceLayout strides subs).2.1 = Tensor.sliceShape subs := by
  induction subs generalizing strides with
  | nil => cases strides <;> simp_all [ND.sliceLayout, Tensor.sliceShape]
  | cons b r ih => cases strides with
    | nil => simp at h
    | cons st strides => cases b <;> simp only [ND.sliceLayout, Tensor.sliceShape, Tensor.sliceLen] <;> simp [ih (by simpa using h)]

theorem sliceLayout_lengths {strides : List Int} {subs : List Sub} :
    (ND.sliceLayout strides subs).2.2.length = (ND.sliceLayout strides subs).2.1.length := by
  induction subs generalizing strides with
  | nil => cases strides <;> simp_all [ND.sliceLayout]
  | cons b r ih => cases strides with
    | nil => cases b <;> simp [ND.sliceLayout]
    | cons st strides => cases b <;> simp [ND.sliceLayout, ih]

/-- Every array has as many strides as dimensions. -/
theorem WF.strides_length {g : Graph V} (h : WF g) {i : Nat} (hi : i < g.length) :
    (g.strides i).length = (g.shape i).length := by
  induction i using Nat.strongRecOn with
  | ind i ih =>
    have hn := h i hi
    have hlt := h.inputs_lt hi
    unfold NodeOK at hn
    have hcd : (g.nd i).ctx = g.ctx i := rfl
    have hsd : g.shape i = (g.nd i).shape := rfl
    have htd : g.strides i = (g.nd i).strides := rfl
    rw [hcd] at hn
    rw [hsd, htd]
    cases hc : g.ctx i <;> simp only [hc, Ctx.inputs, List.mem_cons, List.not_mem_nil, or_false, forall_eq,
      forall_eq_or_imp] at hlt hn ⊢
    case const => obtain ⟨l, _, _, _, h4, _⟩ := hn; rw [h4]; simp
    case unary op x => rw [hn.2.2]; simp [ND.elemwiseNode]
    case binary op l r => rw [hn.2.2.2.2]; simp [ND.elemwiseNode]
    case sum x axis kd => rw [hn.2.2]; simp [ND.reduceNode]
    case reshape x s => rw [hn.2.2.2.2.2]; simp [ND.reshapeNode]
    case broadcast x s =>
      have := ih x hlt (by omega)
      rw [hn.2.2]
      simp only [ND.broadcastNode, List.length_zipWith, List.length_append, List.length_replicate, this]
      have := hn.2.1.1
      omega
    case slice x subs => rw [hn.2.2]; simp only [ND.sliceNode]; exact sliceLayout_lengths
    case transpose x axes => rw [hn.2.2]; simp [ND.transposeNode]
    case contiguous x => rw [hn.2]; simp [ND.elemwiseNode]
    case pad x dim b a => rw [hn.2.2]; simp [ND.padNode]
    case dilate x dim st => rw [hn.2.2.2]; simp [ND.dilateNode]

/-- The recorded shape of an array is the shape of its meaning. -/
theorem den_shape (A : Scalar V) {g : Graph V} (h : WF g) {i : Nat} (hi : i < g.length) :
    (den A g i).shape = g.shape i := by
  induction i using Nat.strongRecOn with
  | ind i ih =>
    rw [den_eq A h hi]
    have hn := h i hi
    have hlt := h.inputs_lt hi
    unfold denStep denCtx
    unfold NodeOK at hn
    have hcd : (g.nd i).ctx = g.ctx i := rfl
    have hsd : g.shape i = (g.nd i).shape := rfl
    rw [hcd] at hn ⊢
    cases hc : g.ctx i <;> simp only [hc, Ctx.inputs, List.mem_cons, List.not_mem_nil, or_false, forall_eq,
      forall_eq_or_imp] at hlt hn ⊢
    case const => rfl
    case unary op x => rw [hsd, hn.2.2]; exact ih x hlt (by omega)
    case binary op l r => rw [hsd, hn.2.2.2.2]; exact ih l hlt.1 (by omega)
    case sum x axis kd =>
      rw [hsd, hn.2.2]
      simp only [Tensor.sum, Tensor.sumShape, ih x hlt (by omega), ND.reduceNode]
    case reshape x s => rw [hsd, hn.2.2.2.2.2]; rfl
    case broadcast x s => rw [hsd, hn.2.2]; rfl
    case slice x subs =>
      rw [hsd, hn.2.2]
      have hlen : (g.strides x).length = subs.length := by
        rw [h.strides_length (by omega), hn.2.1.length]
      simp only [Tensor.slice, ND.sliceNode, sliceLayout_shape hlen]
    case transpose x axes => rw [hsd, hn.2.2]; simp only [Tensor.transpose, ih x hlt (by omega), ND.transposeNode]
    case contiguous x => rw [hsd, hn.2]; exact ih x hlt (by omega)
    case pad x dim b a => rw [hsd, hn.2.2]; simp only [Tensor.pad, ih x hlt (by omega), ND.padNode]
    case dilate x dim st => rw [hsd, hn.2.2.2]; simp only [Tensor.dilate, ih x hlt (by omega), ND.dilateNode]

end Whale
