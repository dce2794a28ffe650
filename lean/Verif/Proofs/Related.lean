import Verif.Spec.Related
import Verif.Proofs.Graph
import Mathlib.Data.List.Forall2
/-
The same operations on graphs with related numbers.
-/
namespace Whale
open Hist
variable {V1 V2 : Type} {R : V1 → V2 → Prop}

structure NodeRel (R : V1 → V2 → Prop) (n1 : Node V1) (n2 : Node V2) : Prop where
  dtype : n1.dtype = n2.dtype
  shape : n1.shape = n2.shape
  strides : n1.strides = n2.strides
  offset : n1.offset = n2.offset
  ctx : n1.ctx = n2.ctx
  val : Option.Rel (List.Forall₂ R) n1.val n2.val

def GRel (R : V1 → V2 → Prop) (g1 : Graph V1) (g2 : Graph V2) : Prop := List.Forall₂ (NodeRel R) g1 g2

theorem NodeRel.default : NodeRel R (default : Node V1) (default : Node V2) := ⟨rfl, rfl, rfl, rfl, rfl, .none⟩

namespace GRel
variable {g1 : Graph V1} {g2 : Graph V2}

theorem length (h : GRel R g1 g2) : g1.length = g2.length := List.Forall₂.length_eq h

theorem nd (h : GRel R g1 g2) (i : Nat) : NodeRel R (g1.nd i) (g2.nd i) := by
  unfold Graph.nd
  induction h generalizing i with
  | nil => exact NodeRel.default
  | cons h _ ih => cases i with
    | zero => exact h
    | succ i => exact ih i

theorem shape (h : GRel R g1 g2) : g1.shape = g2.shape := funext fun i => (h.nd i).shape
theorem strides (h : GRel R g1 g2) : g1.strides = g2.strides := funext fun i => (h.nd i).strides
theorem offset (h : GRel R g1 g2) : g1.offset = g2.offset := funext fun i => (h.nd i).offset
theorem dtype (h : GRel R g1 g2) : g1.dtype = g2.dtype := funext fun i => (h.nd i).dtype
theorem ctx (h : GRel R g1 g2) : g1.ctx = g2.ctx := funext fun i => (h.nd i).ctx
theorem ndim (h : GRel R g1 g2) : g1.ndim = g2.ndim := funext fun i => by unfold Graph.ndim; rw [h.shape]

end GRel

/-- Same exception, or same array in related graphs. -/
def ORel (R : V1 → V2 → Prop) {α : Type} : Except Err (α × Graph V1) → Except Err (α × Graph V2) → Prop
  | .ok (a, g1), .ok (b, g2) => a = b ∧ GRel R g1 g2
  | .error e, .error e' => e = e'
  | _, _ => False

def PRel (R : V1 → V2 → Prop) {α : Type} (p : α × Graph V1) (q : α × Graph V2) : Prop := p.1 = q.1 ∧ GRel R p.2 q.2

theorem PRel.ok {α : Type} {p : α × Graph V1} {q : α × Graph V2} (h : PRel R p q) : ORel R (.ok p) (.ok q) := h
theorem PRel.pure {α : Type} {p : α × Graph V1} {q : α × Graph V2} (h : PRel R p q) : ORel R (Pure.pure p) (Pure.pure q) := h

theorem GRel.push {g1 : Graph V1} {g2 : Graph V2} (h : GRel R g1 g2) {n1 n2} (hn : NodeRel R n1 n2) : PRel R (g1.push n1) (g2.push n2) :=
  ⟨h.length, List.rel_append h (.cons hn .nil)⟩

theorem ORel.bind {α β : Type} {x : Except Err (α × Graph V1)} {y : Except Err (α × Graph V2)} (h : ORel R x y)
    {f : α × Graph V1 → Except Err (β × Graph V1)} {f' : α × Graph V2 → Except Err (β × Graph V2)} (hf : ∀ a g1 g2, GRel R g1 g2 → ORel R (f (a, g1)) (f' (a, g2))) :
    ORel R (x >>= f) (y >>= f') := by
  match x, y, h with
  | .ok (a, g1), .ok (_, g2), ⟨rfl, h⟩ => exact hf a g1 g2 h
  | .error _, .error _, rfl => rfl

/-- A first part that does not depend on the numbers. -/
theorem ORel.bind' {α β : Type} {x : Except Err α}
    {f : α → Except Err (β × Graph V1)} {f' : α → Except Err (β × Graph V2)} (hf : ∀ a, ORel R (f a) (f' a)) :
    ORel R (x >>= f) (x >>= f') := by
  match x with
  | .ok a => exact hf a
  | .error _ => rfl

theorem ORel.refl_error {α : Type} (e : Err) : ORel R (.error e : Except Err (α × Graph V1)) (.error e) := rfl

variable {g1 : Graph V1} {g2 : Graph V2}

theorem unary_rel (h : GRel R g1 g2) (op : Ops) (a : Nat) : PRel R (ND.unary g1 op a) (ND.unary g2 op a) :=
  h.push ⟨(h.nd a).dtype, (h.nd a).shape, by simp [ND.elemwiseNode, h.shape], rfl, rfl, .none⟩

theorem elemwise_rel (h : GRel R g1 g2) (c : Ctx) (a : Nat) : NodeRel R (ND.elemwiseNode g1 c a) (ND.elemwiseNode g2 c a) :=
  ⟨(h.nd a).dtype, (h.nd a).shape, by simp [ND.elemwiseNode, h.shape], rfl, rfl, .none⟩

theorem broadcastTo_rel (h : GRel R g1 g2) (a : Nat) (s : List Int) : PRel R (ND.broadcastTo g1 a s) (ND.broadcastTo g2 a s) :=
  h.push ⟨(h.nd a).dtype, rfl, by simp [ND.broadcastNode, h.shape, h.strides], by simp [ND.broadcastNode, h.offset], rfl, .none⟩

theorem broadcasted_rel (h : GRel R g1 g2) (a b : Nat) : ORel R (ND.broadcasted g1 a b) (ND.broadcasted g2 a b) := by
  unfold ND.broadcasted
  rw [h.shape]
  refine ORel.bind' fun s => ?_
  simp only
  have h1 : PRel R (if g2.shape a ≠ s then ND.broadcastTo g1 a s else (a, g1)) (if g2.shape a ≠ s then ND.broadcastTo g2 a s else (a, g2)) := by
    split
    · exact broadcastTo_rel h a s
    · exact ⟨rfl, h⟩
  obtain ⟨e1, h1⟩ := h1
  generalize (if g2.shape a ≠ s then ND.broadcastTo g1 a s else (a, g1)) = p at *
  generalize (if g2.shape a ≠ s then ND.broadcastTo g2 a s else (a, g2)) = q at *
  rw [h1.shape]
  have h2 : PRel R (if q.2.shape b ≠ s then ND.broadcastTo p.2 b s else (b, p.2)) (if q.2.shape b ≠ s then ND.broadcastTo q.2 b s else (b, q.2)) := by
    split
    · exact broadcastTo_rel h1 b s
    · exact ⟨rfl, h1⟩
  exact ⟨by rw [e1, h2.1], h2.2⟩

theorem binary_rel (h : GRel R g1 g2) (op : Ops) (a b : Nat) : ORel R (ND.binary g1 op a b) (ND.binary g2 op a b) := by
  unfold ND.binary
  exact (broadcasted_rel h a b).bind fun p g1 g2 h => (h.push (elemwise_rel h _ _)).pure

theorem sum_rel (h : GRel R g1 g2) (a : Nat) (ax : AxisArg) (kd : Bool) : ORel R (ND.sum g1 a ax kd) (ND.sum g2 a ax kd) := by
  unfold ND.sum
  rw [h.ndim]
  refine ORel.bind' fun s => PRel.pure (h.push ?_)
  exact ⟨(h.nd a).dtype, by simp [ND.reduceNode, h.shape], by simp [ND.reduceNode, h.shape], rfl, rfl, .none⟩

theorem getitem_rel (h : GRel R g1 g2) (a : Nat) (subs : List RawSub) : ORel R (ND.getitem g1 a subs) (ND.getitem g2 a subs) := by
  unfold ND.getitem
  rw [h.ndim, h.shape]
  dsimp only
  split
  · rfl
  refine ORel.bind' fun s => (h.push ?_).pure
  exact ⟨(h.nd a).dtype, by simp [ND.sliceNode, h.strides], by simp [ND.sliceNode, h.strides], by simp [ND.sliceNode, h.strides, h.offset], rfl, .none⟩

theorem contiguous_rel (h : GRel R g1 g2) (a : Nat) : PRel R (ND.contiguous g1 a) (ND.contiguous g2 a) := by
  unfold ND.contiguous ND.isContiguous
  rw [h.shape, h.strides]
  split
  · exact ⟨rfl, h⟩
  · exact h.push (elemwise_rel h _ _)

theorem reshape_rel (h : GRel R g1 g2) (a : Nat) (s : List Int) : ORel R (ND.reshape g1 a s) (ND.reshape g2 a s) := by
  unfold ND.reshape
  rw [h.shape]
  dsimp only
  split
  · rfl
  obtain ⟨e, h'⟩ := contiguous_rel h a
  refine PRel.pure ?_
  simp only [e]
  exact h'.push ⟨(h'.nd _).dtype, rfl, rfl, rfl, rfl, .none⟩

theorem transpose_rel (h : GRel R g1 g2) (a : Nat) (axes : List Int) : ORel R (ND.transpose g1 a axes) (ND.transpose g2 a axes) := by
  unfold ND.transpose
  rw [h.ndim]
  dsimp only
  split
  · rfl
  refine PRel.pure (h.push ?_)
  exact ⟨(h.nd a).dtype, by simp only [ND.transposeNode, h.shape], by simp only [ND.transposeNode, h.strides], by simp only [ND.transposeNode, h.offset], rfl, .none⟩

theorem T_rel (h : GRel R g1 g2) (a : Nat) : ORel R (ND.T g1 a) (ND.T g2 a) := by
  unfold ND.T
  rw [h.ndim]
  split
  · exact ⟨rfl, h⟩
  · exact transpose_rel h a _

theorem pad_rel (h : GRel R g1 g2) (a : Nat) (d x y : Int) : ORel R (ND.pad g1 a d x y) (ND.pad g2 a d x y) := by
  unfold ND.pad
  rw [h.ndim]
  split
  · rfl
  · split
    · exact ⟨rfl, h⟩
    · split
      · rfl
      · refine PRel.pure (h.push ?_)
        exact ⟨(h.nd a).dtype, by simp [ND.padNode, h.shape], by simp [ND.padNode, h.shape], rfl, rfl, .none⟩

theorem dilate_rel (h : GRel R g1 g2) (a : Nat) (d k : Int) : ORel R (ND.dilate g1 a d k) (ND.dilate g2 a d k) := by
  unfold ND.dilate
  rw [h.ndim]
  split
  · rfl
  · split
    · exact ⟨rfl, h⟩
    · split
      · rfl
      · refine PRel.pure (h.push ?_)
        exact ⟨(h.nd a).dtype, by simp [ND.dilateNode, h.shape], by simp [ND.dilateNode, h.shape], rfl, rfl, .none⟩

/-! ### constants -/

variable {A1 : Scalar V1} {A2 : Scalar V2}

theorem const_rel (h : GRel R g1 g2) (s : List Int) {l1 l2} (hl : List.Forall₂ (SameNumber R A1 A2) l1 l2) : PRel R (ND.const A1 g1 s l1) (ND.const A2 g2 s l2) := by
  refine h.push ⟨?_, rfl, rfl, rfl, rfl, .some (hl.imp fun _ _ h => h.1)⟩
  cases hl with
  | nil => rfl
  | cons h _ => simp only [ND.constNode, ND.constDtype, h.2]

theorem full_rel (h : GRel R g1 g2) (s : List Int) {v1 v2} (hv : SameNumber R A1 A2 v1 v2) : PRel R (ND.full A1 g1 s v1) (ND.full A2 g2 s v2) :=
  const_rel h s (by
    generalize (prod s).toNat = n
    induction n with
    | zero => exact .nil
    | succ n ih => exact .cons hv ih)

theorem fullLike_rel (h : GRel R g1 g2) (a : Nat) {v1 v2} (hv : SameNumber R A1 A2 v1 v2) : PRel R (ND.fullLike A1 g1 a v1) (ND.fullLike A2 g2 a v2) := by
  unfold ND.fullLike; rw [h.shape]; exact full_rel h _ hv

theorem onesLike_rel (hA : SameConstants R A1 A2) (h : GRel R g1 g2) (a : Nat) : PRel R (ND.onesLike A1 g1 a) (ND.onesLike A2 g2 a) := by
  unfold ND.onesLike
  rw [h.dtype]
  refine fullLike_rel h a ?_
  split
  · exact hA.one
  · exact hA.fone

theorem constScalar_rel (h : GRel R g1 g2) {v1 v2} (hv : SameNumber R A1 A2 v1 v2) : PRel R (ND.constScalar A1 g1 v1) (ND.constScalar A2 g2 v2) := const_rel h [] (.cons hv .nil)

mutual
theorem arrayGo_rel (Q : V1 → V2 → Prop) : ∀ (v : Nested (V1 × V2)) (_ : ∀ p ∈ leaves v, Q p.1 p.2) (d : Nat) (s : List Int) {l1 : List V1} {l2 : List V2} (_ : List.Forall₂ Q l1 l2),
    (∃ s' l1' l2', ND.arrayGo (v.map Prod.fst) d (s, l1) = .ok (s', l1') ∧ ND.arrayGo (v.map Prod.snd) d (s, l2) = .ok (s', l2') ∧ List.Forall₂ Q l1' l2') ∨
    ∃ e, ND.arrayGo (v.map Prod.fst) d (s, l1) = .error e ∧ ND.arrayGo (v.map Prod.snd) d (s, l2) = .error e
  | .leaf p, hp, d, s, l1, l2, hl => .inl ⟨s, _, _, rfl, rfl, List.rel_append hl (.cons (hp p (by simp [leaves])) .nil)⟩
  | .node l, hp, d, s, l1, l2, hl => by
    have hlen : ∀ {W : Type} (f : V1 × V2 → W) (l : List (Nested (V1 × V2))), (Nested.mapL f l).length = l.length := by
      intro W f l; induction l with
      | nil => rfl
      | cons x l ih => simp [Nested.mapL, ih]
    simp only [Nested.map, ND.arrayGo, hlen]
    split
    · exact arrayGoL_rel Q l (by simpa [leaves] using hp) _ _ hl
    · split
      · exact .inr ⟨_, rfl, rfl⟩
      · exact arrayGoL_rel Q l (by simpa [leaves] using hp) _ _ hl
theorem arrayGoL_rel (Q : V1 → V2 → Prop) : ∀ (v : List (Nested (V1 × V2))) (_ : ∀ p ∈ leavesL v, Q p.1 p.2) (d : Nat) (s : List Int) {l1 : List V1} {l2 : List V2} (_ : List.Forall₂ Q l1 l2),
    (∃ s' l1' l2', ND.arrayGoL (Nested.mapL Prod.fst v) d (s, l1) = .ok (s', l1') ∧ ND.arrayGoL (Nested.mapL Prod.snd v) d (s, l2) = .ok (s', l2') ∧ List.Forall₂ Q l1' l2') ∨
    ∃ e, ND.arrayGoL (Nested.mapL Prod.fst v) d (s, l1) = .error e ∧ ND.arrayGoL (Nested.mapL Prod.snd v) d (s, l2) = .error e
  | [], _, d, s, l1, l2, hl => .inl ⟨s, _, _, rfl, rfl, hl⟩
  | x :: xs, hp, d, s, l1, l2, hl => by
    simp only [Nested.mapL, ND.arrayGoL]
    rcases arrayGo_rel Q x (fun p h => hp p (by simp [leavesL, h])) d s hl with ⟨s', l1', l2', e1, e2, hl'⟩ | ⟨e, e1, e2⟩
    · rw [e1, e2]
      exact arrayGoL_rel Q xs (fun p h => hp p (by simp [leavesL, h])) d s' hl'
    · rw [e1, e2]
      exact .inr ⟨e, rfl, rfl⟩
end

theorem array_rel (h : GRel R g1 g2) {v : Nested (V1 × V2)} (hv : ∀ p ∈ leaves v, SameNumber R A1 A2 p.1 p.2) : ORel R (ND.array A1 g1 (v.map Prod.fst)) (ND.array A2 g2 (v.map Prod.snd)) := by
  unfold ND.array
  rcases arrayGo_rel (SameNumber R A1 A2) v hv 0 [] .nil with ⟨s', l1', l2', e1, e2, hl'⟩ | ⟨e, e1, e2⟩
  · rw [e1, e2]; exact const_rel h s' hl'
  · rw [e1, e2]; rfl

theorem arange_rel (h : GRel R g1 g2) (n : Int) (hn : ∀ i, 0 ≤ i → i < n → SameNumber R A1 A2 (A1.host i) (A2.host i)) : ORel R (ND.arange A1 g1 n) (ND.arange A2 g2 n) := by
  unfold ND.arange
  have e : ∀ {W : Type} (f : V1 × V2 → W) (l : List Int), Nested.mapL f (l.map fun i => Nested.leaf (A1.host i, A2.host i)) = l.map fun i => .leaf (f (A1.host i, A2.host i)) := by
    intro W f l
    induction l with
    | nil => rfl
    | cons x l ih => simp [Nested.mapL, Nested.map, ih]
  have := array_rel (A1 := A1) (A2 := A2) h (v := .node ((irange n).map fun i => Nested.leaf (A1.host i, A2.host i))) (by
    intro p hp
    have : ∀ l : List Int, (∀ i ∈ l, 0 ≤ i ∧ i < n) → p ∈ leavesL (l.map fun i => Nested.leaf (A1.host i, A2.host i)) → SameNumber R A1 A2 p.1 p.2 := by
      intro l hl
      induction l with
      | nil => intro h; cases h
      | cons x l ih =>
        intro h
        simp only [List.map, leavesL, leaves, List.mem_append, List.mem_singleton] at h
        rcases h with rfl | h
        · exact hn x (hl x (.head _)).1 (hl x (.head _)).2
        · exact ih (fun i hi => hl i (.tail _ hi)) h
    exact this _ (fun i hi => mem_irange.1 hi) hp)
  simpa [Nested.map, e] using this

end Whale
