import Verif.Spec.Amid
import Verif.Proofs.Graph
import Mathlib.Order.Monotone.Basic
/-
The same operations on a graph and on a graph that contains it among other arrays.
-/
namespace Whale
open Hist
variable {V : Type}

def Ctx.ren (ρ : Nat → Nat) : Ctx → Ctx
  | .const => .const
  | .unary op x => .unary op (ρ x)
  | .binary op l r => .binary op (ρ l) (ρ r)
  | .sum x ax kd => .sum (ρ x) ax kd
  | .reshape x s => .reshape (ρ x) s
  | .broadcast x s => .broadcast (ρ x) s
  | .slice x s => .slice (ρ x) s
  | .transpose x s => .transpose (ρ x) s
  | .contiguous x => .contiguous (ρ x)
  | .pad x d p q => .pad (ρ x) d p q
  | .dilate x d s => .dilate (ρ x) d s

theorem Ctx.ren_op (ρ : Nat → Nat) (c : Ctx) : (c.ren ρ).op = c.op := by cases c <;> rfl
theorem Ctx.ren_inputs (ρ : Nat → Nat) (c : Ctx) : (c.ren ρ).inputs = c.inputs.map ρ := by cases c <;> rfl
theorem Ctx.ren_congr {ρ σ : Nat → Nat} {c : Ctx} (h : ∀ x ∈ c.inputs, ρ x = σ x) : c.ren ρ = c.ren σ := by
  cases c <;> simp [Ctx.inputs] at h <;> simp [Ctx.ren, h]
theorem Ctx.ren_const {ρ : Nat → Nat} {c : Ctx} : c.ren ρ = .const ↔ c = .const := by cases c <;> simp [Ctx.ren]

def Node.ren (ρ : Nat → Nat) (n : Node V) : Node V := { n with ctx := n.ctx.ren ρ }

structure GEmb (ρ : Nat → Nat) (g1 g2 : Graph V) : Prop where
  mono : StrictMono ρ
  nd : ∀ i, g2.nd (ρ i) = (g1.nd i).ren ρ
  top : ∀ k, ρ (g1.length + k) = g2.length + k

namespace GEmb
variable {ρ : Nat → Nat} {g1 g2 : Graph V}

theorem shape (h : GEmb ρ g1 g2) (i : Nat) : g2.shape (ρ i) = g1.shape i := by simp [Graph.shape, h.nd, Node.ren]
theorem strides (h : GEmb ρ g1 g2) (i : Nat) : g2.strides (ρ i) = g1.strides i := by simp [Graph.strides, h.nd, Node.ren]
theorem offset (h : GEmb ρ g1 g2) (i : Nat) : g2.offset (ρ i) = g1.offset i := by simp [Graph.offset, h.nd, Node.ren]
theorem dtype (h : GEmb ρ g1 g2) (i : Nat) : g2.dtype (ρ i) = g1.dtype i := by simp [Graph.dtype, h.nd, Node.ren]
theorem ctx (h : GEmb ρ g1 g2) (i : Nat) : g2.ctx (ρ i) = (g1.ctx i).ren ρ := by simp [Graph.ctx, h.nd, Node.ren]
theorem ndim (h : GEmb ρ g1 g2) (i : Nat) : g2.ndim (ρ i) = g1.ndim i := by simp [Graph.ndim, h.shape]
theorem length (h : GEmb ρ g1 g2) : ρ g1.length = g2.length := h.top 0
theorem lt (h : GEmb ρ g1 g2) {i : Nat} : ρ i < g2.length ↔ i < g1.length := by rw [← h.length]; exact h.mono.lt_iff_lt
theorem inj (h : GEmb ρ g1 g2) {i j : Nat} : ρ i = ρ j ↔ i = j := h.mono.injective.eq_iff

theorem le (h : GEmb ρ g1 g2) (i : Nat) : i ≤ ρ i := by
  induction i with
  | zero => exact Nat.zero_le _
  | succ i ih => exact Nat.lt_of_le_of_lt ih (h.mono (Nat.lt_succ_self i))

end GEmb

/-- Same exception, or corresponding results in corresponding graphs. -/
def OEmb (ρ : Nat → Nat) {α : Type} (rn : α → α) : Except Err (α × Graph V) → Except Err (α × Graph V) → Prop
  | .ok (a, g1), .ok (b, g2) => b = rn a ∧ GEmb ρ g1 g2
  | .error e, .error e' => e = e'
  | _, _ => False

def PEmb (ρ : Nat → Nat) (p q : Nat × Graph V) : Prop := q.1 = ρ p.1 ∧ GEmb ρ p.2 q.2

theorem PEmb.ok {ρ : Nat → Nat} {p q : Nat × Graph V} (h : PEmb ρ p q) : OEmb ρ ρ (.ok p) (.ok q) := h
theorem PEmb.pure {ρ : Nat → Nat} {p q : Nat × Graph V} (h : PEmb ρ p q) : OEmb ρ ρ (Pure.pure p) (Pure.pure q) := h

theorem nd_append_lt {g : Graph V} {n : Node V} {i : Nat} (h : i < g.length) : Graph.nd (g ++ [n]) i = g.nd i := by
  simp [Graph.nd, List.getElem?_append_left h]
theorem nd_append_eq {g : Graph V} {n : Node V} : Graph.nd (g ++ [n]) g.length = n := by simp [Graph.nd]
theorem nd_ge {g : Graph V} {i : Nat} (h : g.length ≤ i) : g.nd i = default := by
  simp [Graph.nd, List.getElem?_eq_none h]

theorem GEmb.push {ρ : Nat → Nat} {g1 g2 : Graph V} (h : GEmb ρ g1 g2) {n1 n2 : Node V} (hn : n2 = n1.ren ρ) : PEmb ρ (g1.push n1) (g2.push n2) := by
  refine ⟨h.length.symm, h.mono, fun i => ?_, fun k => ?_⟩
  · show Graph.nd (g2 ++ [n2]) (ρ i) = (Graph.nd (g1 ++ [n1]) i).ren ρ
    rcases Nat.lt_trichotomy i g1.length with hi | hi | hi
    · rw [nd_append_lt hi, nd_append_lt (h.lt.2 hi)]; exact h.nd i
    · subst hi
      rw [nd_append_eq, h.length, nd_append_eq]; exact hn
    · have := h.mono hi
      rw [h.length] at this
      rw [nd_ge (g := g2 ++ [n2]) (by simp; omega), nd_ge (g := g1 ++ [n1]) (by simp; omega)]
      rfl
  · show ρ ((g1 ++ [n1]).length + k) = (g2 ++ [n2]).length + k
    have := h.top (k + 1)
    simp only [List.length_append, List.length_singleton]
    rw [show g1.length + 1 + k = g1.length + (k + 1) by omega, this]; omega

theorem OEmb.bind {ρ : Nat → Nat} {α β : Type} {rn : α → α} {rm : β → β} {x y : Except Err (α × Graph V)} (h : OEmb ρ rn x y)
    {f f' : α × Graph V → Except Err (β × Graph V)} (hf : ∀ a g1 g2, GEmb ρ g1 g2 → OEmb ρ rm (f (a, g1)) (f' (rn a, g2))) :
    OEmb ρ rm (x >>= f) (y >>= f') := by
  match x, y, h with
  | .ok (a, g1), .ok (_, g2), ⟨rfl, h⟩ => exact hf a g1 g2 h
  | .error _, .error _, rfl => rfl

theorem OEmb.bind' {ρ : Nat → Nat} {α β : Type} {rm : β → β} {x : Except Err α}
    {f f' : α → Except Err (β × Graph V)} (hf : ∀ a, OEmb ρ rm (f a) (f' a)) : OEmb ρ rm (x >>= f) (x >>= f') := by
  match x with
  | .ok a => exact hf a
  | .error _ => rfl

variable {ρ : Nat → Nat} {g1 g2 : Graph V}

theorem elemwise_emb (h : GEmb ρ g1 g2) (c : Ctx) (a : Nat) : ND.elemwiseNode g2 (c.ren ρ) (ρ a) = (ND.elemwiseNode g1 c a).ren ρ := by
  simp [ND.elemwiseNode, Node.ren, h.shape, h.dtype]

theorem unary_emb (h : GEmb ρ g1 g2) (op : Ops) (a : Nat) : PEmb ρ (ND.unary g1 op a) (ND.unary g2 op (ρ a)) := h.push (elemwise_emb h (.unary op a) a)

theorem broadcastTo_emb (h : GEmb ρ g1 g2) (a : Nat) (s : List Int) : PEmb ρ (ND.broadcastTo g1 a s) (ND.broadcastTo g2 (ρ a) s) :=
  h.push (by simp [ND.broadcastNode, Node.ren, Ctx.ren, h.shape, h.dtype, h.strides, h.offset])

theorem broadcasted_emb (h : GEmb ρ g1 g2) (a b : Nat) : OEmb ρ (fun p => (ρ p.1, ρ p.2)) (ND.broadcasted g1 a b) (ND.broadcasted g2 (ρ a) (ρ b)) := by
  unfold ND.broadcasted
  rw [h.shape, h.shape]
  refine OEmb.bind' fun s => ?_
  simp only
  have h1 : PEmb ρ (if g1.shape a ≠ s then ND.broadcastTo g1 a s else (a, g1)) (if g1.shape a ≠ s then ND.broadcastTo g2 (ρ a) s else (ρ a, g2)) := by
    split
    · exact broadcastTo_emb h a s
    · exact ⟨rfl, h⟩
  obtain ⟨e1, h1⟩ := h1
  generalize (if g1.shape a ≠ s then ND.broadcastTo g1 a s else (a, g1)) = p at *
  generalize (if g1.shape a ≠ s then ND.broadcastTo g2 (ρ a) s else (ρ a, g2)) = q at *
  rw [h1.shape]
  have h2 : PEmb ρ (if p.2.shape b ≠ s then ND.broadcastTo p.2 b s else (b, p.2)) (if p.2.shape b ≠ s then ND.broadcastTo q.2 (ρ b) s else (ρ b, q.2)) := by
    split
    · exact broadcastTo_emb h1 b s
    · exact ⟨rfl, h1⟩
  exact ⟨by rw [e1, h2.1], h2.2⟩

theorem binary_emb (h : GEmb ρ g1 g2) (op : Ops) (a b : Nat) : OEmb ρ ρ (ND.binary g1 op a b) (ND.binary g2 op (ρ a) (ρ b)) := by
  unfold ND.binary
  exact (broadcasted_emb h a b).bind fun p g1 g2 h => (h.push (elemwise_emb h (.binary op p.1 p.2) _)).pure

theorem sum_emb (h : GEmb ρ g1 g2) (a : Nat) (ax : AxisArg) (kd : Bool) : OEmb ρ ρ (ND.sum g1 a ax kd) (ND.sum g2 (ρ a) ax kd) := by
  unfold ND.sum
  rw [h.ndim]
  refine OEmb.bind' fun s => PEmb.pure (h.push ?_)
  simp [ND.reduceNode, Node.ren, Ctx.ren, h.shape, h.dtype]

theorem getitem_emb (h : GEmb ρ g1 g2) (a : Nat) (subs : List RawSub) : OEmb ρ ρ (ND.getitem g1 a subs) (ND.getitem g2 (ρ a) subs) := by
  unfold ND.getitem
  rw [h.ndim, h.shape]
  dsimp only
  split
  · rfl
  refine OEmb.bind' fun s => (h.push ?_).pure
  simp [ND.sliceNode, Node.ren, Ctx.ren, h.dtype, h.strides, h.offset]

theorem contiguous_emb (h : GEmb ρ g1 g2) (a : Nat) : PEmb ρ (ND.contiguous g1 a) (ND.contiguous g2 (ρ a)) := by
  unfold ND.contiguous ND.isContiguous
  rw [h.shape, h.strides]
  split
  · exact ⟨rfl, h⟩
  · exact h.push (elemwise_emb h (.contiguous a) _)

theorem reshape_emb (h : GEmb ρ g1 g2) (a : Nat) (s : List Int) : OEmb ρ ρ (ND.reshape g1 a s) (ND.reshape g2 (ρ a) s) := by
  unfold ND.reshape
  rw [h.shape]
  dsimp only
  split
  · rfl
  obtain ⟨e, h'⟩ := contiguous_emb h a
  refine PEmb.pure ?_
  simp only [e]
  exact h'.push (by simp [ND.reshapeNode, Node.ren, Ctx.ren, h'.dtype])

theorem transpose_emb (h : GEmb ρ g1 g2) (a : Nat) (axes : List Int) : OEmb ρ ρ (ND.transpose g1 a axes) (ND.transpose g2 (ρ a) axes) := by
  unfold ND.transpose
  rw [h.ndim]
  dsimp only
  split
  · rfl
  refine PEmb.pure (h.push ?_)
  simp only [ND.transposeNode, Node.ren, Ctx.ren, h.shape, h.dtype, h.strides, h.offset]

theorem T_emb (h : GEmb ρ g1 g2) (a : Nat) : OEmb ρ ρ (ND.T g1 a) (ND.T g2 (ρ a)) := by
  unfold ND.T
  rw [h.ndim]
  split
  · exact ⟨rfl, h⟩
  · exact transpose_emb h a _

theorem pad_emb (h : GEmb ρ g1 g2) (a : Nat) (d x y : Int) : OEmb ρ ρ (ND.pad g1 a d x y) (ND.pad g2 (ρ a) d x y) := by
  unfold ND.pad
  rw [h.ndim]
  split
  · rfl
  · split
    · exact ⟨rfl, h⟩
    · split
      · rfl
      · exact PEmb.pure (h.push (by simp [ND.padNode, Node.ren, Ctx.ren, h.shape, h.dtype]))

theorem dilate_emb (h : GEmb ρ g1 g2) (a : Nat) (d k : Int) : OEmb ρ ρ (ND.dilate g1 a d k) (ND.dilate g2 (ρ a) d k) := by
  unfold ND.dilate
  rw [h.ndim]
  split
  · rfl
  · split
    · exact ⟨rfl, h⟩
    · split
      · rfl
      · exact PEmb.pure (h.push (by simp [ND.dilateNode, Node.ren, Ctx.ren, h.shape, h.dtype]))

theorem const_emb (A : Scalar V) (h : GEmb ρ g1 g2) (s : List Int) (l : List V) : PEmb ρ (ND.const A g1 s l) (ND.const A g2 s l) := h.push rfl

theorem full_emb (A : Scalar V) (h : GEmb ρ g1 g2) (s : List Int) (v : V) : PEmb ρ (ND.full A g1 s v) (ND.full A g2 s v) := const_emb A h _ _

theorem fullLike_emb (A : Scalar V) (h : GEmb ρ g1 g2) (a : Nat) (v : V) : PEmb ρ (ND.fullLike A g1 a v) (ND.fullLike A g2 (ρ a) v) := by
  unfold ND.fullLike; rw [h.shape]; exact full_emb A h _ v

theorem onesLike_emb (A : Scalar V) (h : GEmb ρ g1 g2) (a : Nat) : PEmb ρ (ND.onesLike A g1 a) (ND.onesLike A g2 (ρ a)) := by
  unfold ND.onesLike
  rw [h.dtype]
  exact fullLike_emb A h a _

theorem constScalar_emb (A : Scalar V) (h : GEmb ρ g1 g2) (v : V) : PEmb ρ (ND.constScalar A g1 v) (ND.constScalar A g2 v) := const_emb A h _ _

theorem array_emb (A : Scalar V) (h : GEmb ρ g1 g2) (v : Nested V) : OEmb ρ ρ (ND.array A g1 v) (ND.array A g2 v) := by
  unfold ND.array
  exact OEmb.bind' fun p => PEmb.pure (const_emb A h _ _)

theorem arange_emb (A : Scalar V) (h : GEmb ρ g1 g2) (n : Int) : OEmb ρ ρ (ND.arange A g1 n) (ND.arange A g2 n) := array_emb A h _

end Whale
