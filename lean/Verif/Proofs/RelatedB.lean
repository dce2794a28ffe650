import Verif.Proofs.Related
import Verif.Proofs.Observe
/-
The same calls, including `backward`, in worlds with related numbers; meaning of related graphs.
-/
namespace Whale
open Hist Bwd
variable {V1 V2 : Type} {R : V1 → V2 → Prop} {g1 : Graph V1} {g2 : Graph V2} {A1 : Scalar V1} {A2 : Scalar V2}

theorem sumRule_rel (h : GRel R g1 g2) (x : Nat) (ax : List Nat) (kd : Bool) (gr : Nat) : ORel R (sumRule g1 x ax kd gr) (sumRule g2 x ax kd gr) := by
  unfold sumRule
  rw [h.shape]
  have hb : ∀ (a : Nat) (g1 : Graph V1) (g2 : Graph V2), GRel R g1 g2 → PRel R (([(ND.broadcastTo g1 a (g1.shape x)).1], (ND.broadcastTo g1 a (g1.shape x)).2) : List Nat × Graph V1)
      ([(ND.broadcastTo g2 a (g2.shape x)).1], (ND.broadcastTo g2 a (g2.shape x)).2) := by
    intro a g1 g2 h
    rw [h.shape]
    have := broadcastTo_rel h a (g2.shape x)
    exact ⟨by rw [this.1], this.2⟩
  dsimp only
  split
  · exact hb _ _ _ h
  · exact (reshape_rel h _ _).bind fun a g1 g2 h => hb _ _ _ h

theorem broadcastRule_rel (h : GRel R g1 g2) (x gr : Nat) : ORel R (broadcastRule g1 x gr) (broadcastRule g2 x gr) := by
  unfold broadcastRule
  rw [h.shape, h.ndim]
  refine (sum_rel h _ _ _).bind fun a g1 g2 h => ?_
  dsimp only
  split
  · exact ⟨rfl, h⟩
  · rw [h.shape]
    exact (reshape_rel h _ _).bind fun a g1 g2 h => ⟨rfl, h⟩

theorem sliceLoop_rel (shape : List Int) (subs : List Sub) : ∀ (d : Nat) {g1 : Graph V1} {g2 : Graph V2} (_ : GRel R g1 g2) (gr : Nat),
    ORel R (sliceLoop shape subs d g1 gr) (sliceLoop shape subs d g2 gr) := by
  induction subs with
  | nil => intro d g1 g2 h gr; exact ⟨rfl, h⟩
  | cons s subs ih =>
    intro d g1 g2 h gr
    cases s with
    | int s =>
      simp only [sliceLoop]
      rw [h.shape]
      refine (reshape_rel h _ _).bind fun a g1 g2 h => ?_
      exact (pad_rel h _ _ _ _).bind fun a g1 g2 h => ih _ h a
    | slice a b c =>
      simp only [sliceLoop]
      have hp : ∀ (k : Nat) (g1 : Graph V1) (g2 : Graph V2), GRel R g1 g2 → ORel R
          (if a > 0 ∨ geti shape d - a - geti (g1.shape k) d > 0 then (do
            let x ← ND.pad g1 k d a (geti shape d - a - geti (g1.shape k) d)
            sliceLoop shape subs (d + 1) x.2 x.1) else sliceLoop shape subs (d + 1) g1 k)
          (if a > 0 ∨ geti shape d - a - geti (g2.shape k) d > 0 then (do
            let x ← ND.pad g2 k d a (geti shape d - a - geti (g2.shape k) d)
            sliceLoop shape subs (d + 1) x.2 x.1) else sliceLoop shape subs (d + 1) g2 k) := by
        intro k g1 g2 h
        rw [h.shape]
        split
        · exact (pad_rel h _ _ _ _).bind fun k g1 g2 h => ih _ h k
        · exact ih _ h k
      split
      · exact (dilate_rel h _ _ _).bind fun k g1 g2 h => hp k g1 g2 h
      · exact hp gr g1 g2 h

theorem sliceRule_rel (h : GRel R g1 g2) (x : Nat) (subs : List Sub) (gr : Nat) : ORel R (sliceRule g1 x subs gr) (sliceRule g2 x subs gr) := by
  unfold sliceRule
  rw [h.shape]
  exact (sliceLoop_rel _ _ _ h _).bind fun a g1 g2 h => ⟨rfl, h⟩

theorem padRule_rel (h : GRel R g1 g2) (x : Nat) (d b : Int) (gr : Nat) : ORel R (padRule g1 x d b gr) (padRule g2 x d b gr) := by
  unfold padRule
  rw [h.shape, h.ndim]
  exact (getitem_rel h _ _).bind fun a g1 g2 h => ⟨rfl, h⟩

theorem dilateRule_rel (h : GRel R g1 g2) (d k : Int) (gr : Nat) : ORel R (dilateRule g1 d k gr) (dilateRule g2 d k gr) := by
  unfold dilateRule
  rw [h.ndim]
  exact (getitem_rel h _ _).bind fun a g1 g2 h => ⟨rfl, h⟩

theorem PRel.elim {α β : Type} {p : α × Graph V1} {q : α × Graph V2} (h : PRel R p q) {f : α × Graph V1 → Except Err (β × Graph V1)} {f' : α × Graph V2 → Except Err (β × Graph V2)}
    (hf : ∀ a g1 g2, GRel R g1 g2 → ORel R (f (a, g1)) (f' (a, g2))) : ORel R (f p) (f' q) := by
  obtain ⟨a, g1⟩ := p
  obtain ⟨b, g2⟩ := q
  obtain ⟨h1, h2⟩ := h
  cases h1
  exact hf _ _ _ h2

theorem unaryRule_rel (hA : SameConstants R A1 A2) (h : GRel R g1 g2) (op : Ops) (t x gr : Nat) : ORel R (unaryRule A1 g1 op t x gr) (unaryRule A2 g2 op t x gr) := by
  unfold unaryRule
  split
  · exact (unary_rel h _ _).elim (f := fun p => pure ([p.1], p.2)) (f' := fun p => pure ([p.1], p.2)) fun a g1 g2 h => ⟨rfl, h⟩
  · exact (unary_rel h _ _).elim (f := fun p => (do let (r, g) ← ND.binary p.2 .Mul p.1 gr; pure ([r], g))) (f' := fun p => (do let (r, g) ← ND.binary p.2 .Mul p.1 gr; pure ([r], g)))
      fun a g1 g2 h => (binary_rel h _ _ _).bind fun a g1 g2 h => ⟨rfl, h⟩
  · exact (unary_rel h _ _).elim (f := fun p => (do let (r, g) ← ND.binary (ND.unary p.2 .Neg p.1).2 .Mul (ND.unary p.2 .Neg p.1).1 gr; pure ([r], g)))
      (f' := fun p => (do let (r, g) ← ND.binary (ND.unary p.2 .Neg p.1).2 .Mul (ND.unary p.2 .Neg p.1).1 gr; pure ([r], g)))
      fun a g1 g2 h => (unary_rel h .Neg a).elim (f := fun p => (do let (r, g) ← ND.binary p.2 .Mul p.1 gr; pure ([r], g))) (f' := fun p => (do let (r, g) ← ND.binary p.2 .Mul p.1 gr; pure ([r], g)))
      fun a g1 g2 h => (binary_rel h _ _ _).bind fun a g1 g2 h => ⟨rfl, h⟩
  · exact (binary_rel h _ _ _).bind fun a g1 g2 h => ⟨rfl, h⟩
  · exact (binary_rel h _ _ _).bind fun a g1 g2 h => ⟨rfl, h⟩
  · exact (constScalar_rel h hA.two).elim (f := fun p => (do let (m, g) ← ND.binary p.2 .Mul t p.1; let (r, g) ← ND.binary g .Truediv gr m; pure ([r], g)))
      (f' := fun p => (do let (m, g) ← ND.binary p.2 .Mul t p.1; let (r, g) ← ND.binary g .Truediv gr m; pure ([r], g)))
      fun a g1 g2 h => (binary_rel h _ _ _).bind fun a g1 g2 h => (binary_rel h _ _ _).bind fun a g1 g2 h => ⟨rfl, h⟩
  · rfl

theorem binaryRule_rel (hA : SameConstants R A1 A2) (h : GRel R g1 g2) (op : Ops) (l r gr : Nat) : ORel R (binaryRule A1 g1 op l r gr) (binaryRule A2 g2 op l r gr) := by
  unfold binaryRule
  split
  · exact ⟨rfl, h⟩
  · exact (unary_rel h .Neg gr).elim (f := fun p => pure ([gr, p.1], p.2)) (f' := fun p => pure ([gr, p.1], p.2)) fun a g1 g2 h => ⟨rfl, h⟩
  · exact (binary_rel h _ _ _).bind fun a g1 g2 h => (binary_rel h _ _ _).bind fun b g1 g2 h => ⟨rfl, h⟩
  · refine (binary_rel h _ _ _).bind fun a g1 g2 h => ?_
    exact (unary_rel h .Neg l).elim
      (f := fun p => (do let (q, g) ← ND.binary (ND.constScalar A1 p.2 (A1.host 2)).2 .Pow r (ND.constScalar A1 p.2 (A1.host 2)).1
                         let (q, g) ← ND.binary g .Truediv p.1 q; let (b, g) ← ND.binary g .Mul gr q; pure ([a, b], g)))
      (f' := fun p => (do let (q, g) ← ND.binary (ND.constScalar A2 p.2 (A2.host 2)).2 .Pow r (ND.constScalar A2 p.2 (A2.host 2)).1
                          let (q, g) ← ND.binary g .Truediv p.1 q; let (b, g) ← ND.binary g .Mul gr q; pure ([a, b], g)))
      fun n g1 g2 h => (constScalar_rel h hA.two).elim
        (f := fun p => (do let (q, g) ← ND.binary p.2 .Pow r p.1; let (q, g) ← ND.binary g .Truediv n q; let (b, g) ← ND.binary g .Mul gr q; pure ([a, b], g)))
        (f' := fun p => (do let (q, g) ← ND.binary p.2 .Pow r p.1; let (q, g) ← ND.binary g .Truediv n q; let (b, g) ← ND.binary g .Mul gr q; pure ([a, b], g)))
        fun c g1 g2 h => (binary_rel h _ _ _).bind fun q g1 g2 h => (binary_rel h _ _ _).bind fun q g1 g2 h => (binary_rel h _ _ _).bind fun b g1 g2 h => ⟨rfl, h⟩
  · exact (constScalar_rel h hA.one).elim
      (f := fun p => (do
        let (m, g) ← ND.binary p.2 .Sub r p.1; let (p, g) ← ND.binary g .Pow l m; let (q, g) ← ND.binary g .Mul r p; let (a, g) ← ND.binary g .Mul q gr; let (p, g) ← ND.binary g .Pow l r
        let (q, g) ← ND.binary (ND.unary g .Log l).2 .Mul p (ND.unary g .Log l).1; let (b, g) ← ND.binary g .Mul q gr; pure ([a, b], g)))
      (f' := fun p => (do
        let (m, g) ← ND.binary p.2 .Sub r p.1; let (p, g) ← ND.binary g .Pow l m; let (q, g) ← ND.binary g .Mul r p; let (a, g) ← ND.binary g .Mul q gr; let (p, g) ← ND.binary g .Pow l r
        let (q, g) ← ND.binary (ND.unary g .Log l).2 .Mul p (ND.unary g .Log l).1; let (b, g) ← ND.binary g .Mul q gr; pure ([a, b], g)))
      fun c g1 g2 h => (binary_rel h _ _ _).bind fun m g1 g2 h => (binary_rel h _ _ _).bind fun p g1 g2 h => (binary_rel h _ _ _).bind fun q g1 g2 h =>
        (binary_rel h _ _ _).bind fun a g1 g2 h => (binary_rel h _ _ _).bind fun p g1 g2 h =>
        (unary_rel h .Log l).elim (f := fun s => (do let (q, g) ← ND.binary s.2 .Mul p s.1; let (b, g) ← ND.binary g .Mul q gr; pure ([a, b], g)))
          (f' := fun s => (do let (q, g) ← ND.binary s.2 .Mul p s.1; let (b, g) ← ND.binary g .Mul q gr; pure ([a, b], g)))
          fun lg g1 g2 h => (binary_rel h _ _ _).bind fun q g1 g2 h => (binary_rel h _ _ _).bind fun b g1 g2 h => ⟨rfl, h⟩
  · rfl

theorem rule_rel (hA : SameConstants R A1 A2) (h : GRel R g1 g2) (t gr : Nat) : ORel R (rule A1 g1 t gr) (rule A2 g2 t gr) := by
  unfold rule
  rw [h.ctx, h.shape]
  cases g2.ctx t with
  | const => rfl
  | unary op x => exact unaryRule_rel hA h _ _ _ _
  | binary op l r => exact binaryRule_rel hA h _ _ _ _
  | sum x ax kd => exact sumRule_rel h _ _ _ _
  | reshape x s => exact (reshape_rel h _ _).bind fun a g1 g2 h => ⟨rfl, h⟩
  | broadcast x s => exact broadcastRule_rel h _ _
  | slice x s => exact sliceRule_rel h _ _ _
  | transpose x ax => exact (transpose_rel h _ _).bind fun a g1 g2 h => ⟨rfl, h⟩
  | contiguous x => exact ⟨rfl, h⟩
  | pad x d b a => exact padRule_rel h _ _ _ _
  | dilate x d s => exact dilateRule_rel h _ _ _

/-! ### worlds -/

/-- Related graphs, and the same gradients. -/
structure WRel (R : V1 → V2 → Prop) (w1 : World V1) (w2 : World V2) : Prop where
  g : GRel R w1.g w2.g
  grad : w1.grad = w2.grad

def EWRel (R : V1 → V2 → Prop) : Except Err (World V1) → Except Err (World V2) → Prop
  | .ok w1, .ok w2 => WRel R w1 w2
  | .error e, .error e' => e = e'
  | _, _ => False

theorem foldlM_rel {α : Type} {f : World V1 → α → Except Err (World V1)} {f' : World V2 → α → Except Err (World V2)} (hf : ∀ a w1 w2, WRel R w1 w2 → EWRel R (f w1 a) (f' w2 a)) :
    ∀ (l : List α) {w1 w2}, WRel R w1 w2 → EWRel R (l.foldlM f w1) (l.foldlM f' w2)
  | [], _, _, h => h
  | a :: l, w1, w2, h => by
    rw [List.foldlM_cons, List.foldlM_cons]
    have := hf a _ _ h
    match hx : f w1 a, hy : f' w2 a, this with
    | .ok w1', .ok w2', h' => exact foldlM_rel hf l h'
    | .error _, .error _, rfl => rfl

theorem accum_rel {w1 : World V1} {w2 : World V2} (h : WRel R w1 w2) (p : Nat × Nat) : EWRel R (accum w1 p) (accum w2 p) := by
  unfold accum
  rw [h.grad]
  cases hg : w2.grad p.1 with
  | none => exact ⟨h.g, by simp only [h.grad]⟩
  | some o =>
    have := binary_rel h.g .Add o p.2
    dsimp only
    match hx : ND.binary w1.g .Add o p.2, hy : ND.binary w2.g .Add o p.2, this with
    | .ok (a, g1), .ok (_, g2), ⟨rfl, h'⟩ => exact ⟨h', rfl⟩
    | .error _, .error _, rfl => rfl

theorem visit_rel (hA : SameConstants R A1 A2) {w1 : World V1} {w2 : World V2} (h : WRel R w1 w2) (t : Nat) : EWRel R (visit A1 w1 t) (visit A2 w2 t) := by
  unfold visit
  rw [h.grad, h.g.ctx]
  cases w2.grad t with
  | none => rfl
  | some gr =>
    have := rule_rel hA h.g t gr
    dsimp only
    match hx : rule A1 w1.g t gr, hy : rule A2 w2.g t gr, this with
    | .ok (a, g1), .ok (_, g2), ⟨rfl, h'⟩ => exact foldlM_rel (fun p w1 w2 h => accum_rel h p) _ ⟨h', rfl⟩
    | .error _, .error _, rfl => rfl

theorem seed_rel (hA : SameConstants R A1 A2) {w1 : World V1} {w2 : World V2} (h : WRel R w1 w2) (y : Nat) : WRel R (seed A1 w1 y) (seed A2 w2 y) := by
  unfold seed
  rw [h.grad]
  cases hg : w2.grad y with
  | some _ => exact h
  | none =>
    have := onesLike_rel hA h.g y
    exact ⟨this.2, by simp only [this.1, h.grad]⟩

theorem dfs_rel (h : GRel R g1 g2) : ∀ (n t : Nat) st, dfs g1 n t st = dfs g2 n t st := by
  intro n
  induction n with
  | zero => intro t st; rfl
  | succ n ih =>
    intro t st
    obtain ⟨seen, funcs⟩ := st
    have : (fun st i => dfs g1 n i st) = fun st i => dfs g2 n i st := funext fun st => funext fun i => ih i st
    simp only [dfs, h.ctx, this]

theorem backward_rel (hA : SameConstants R A1 A2) {w1 : World V1} {w2 : World V2} (h : WRel R w1 w2) (y : Nat) : EWRel R (backward A1 w1 y) (backward A2 w2 y) := by
  unfold backward
  have hs := seed_rel hA h y
  dsimp only
  rw [dfs_rel hs.g]
  cases hd : dfs (seed A2 w2 y).g (y + 1) y ([], []) with
  | error e => rfl
  | ok p => exact foldlM_rel (fun t w1 w2 h => visit_rel hA h t) _ hs

/-! ### meaning -/

theorem denF_rel (hA : Respects R A1 A2) (h : GRel R g1 g2) : ∀ (n i : Nat), (denF A1 g1 n i).shape = (denF A2 g2 n i).shape ∧ ∀ idx, R ((denF A1 g1 n i).get idx) ((denF A2 g2 n i).get idx) := by
  intro n
  induction n with
  | zero => intro i; exact ⟨rfl, fun _ => hA.zero⟩
  | succ n ih =>
    intro i
    simp only [denF]
    rw [h.ctx]
    cases g2.ctx i with
    | const =>
      refine ⟨(h.nd i).shape, fun idx => ?_⟩
      simp only [Tensor.ofFlat]
      rw [h.shape]
      generalize (ravel (g2.shape i) idx).toNat = k
      have : List.Forall₂ R ((g1.nd i).val.getD []) ((g2.nd i).val.getD []) := by
        have hv := (h.nd i).val
        generalize (g1.nd i).val = x at hv ⊢
        generalize (g2.nd i).val = y at hv ⊢
        cases hv with
        | some h => exact h
        | none => exact .nil
      generalize (g1.nd i).val.getD [] = x at this ⊢
      generalize (g2.nd i).val.getD [] = y at this ⊢
      induction this generalizing k with
      | nil => exact hA.zero
      | cons h _ ih => cases k with
        | zero => exact h
        | succ k => exact ih k
    | unary op x => exact ⟨(ih x).1, fun idx => hA.un op _ _ ((ih x).2 idx)⟩
    | binary op l r => exact ⟨(ih l).1, fun idx => hA.bin op _ _ _ _ ((ih l).2 idx) ((ih r).2 idx)⟩
    | sum x ax kd =>
      obtain ⟨hs, hx⟩ := ih x
      refine ⟨by simp only [Tensor.sum, hs], fun idx => ?_⟩
      simp only [Tensor.sum, hs]
      generalize List.filter _ _ = l
      have h0 := hA.zero
      generalize A1.ofInt 0 = a at h0 ⊢
      generalize A2.ofInt 0 = b at h0 ⊢
      induction l generalizing a b with
      | nil => exact h0
      | cons j l ihl => exact ihl _ _ (hA.bin .Add _ _ _ _ h0 (hx j))
    | reshape x s => exact ⟨rfl, fun idx => by simp only [Tensor.reshape, (ih x).1]; exact (ih x).2 _⟩
    | broadcast x s => exact ⟨rfl, fun idx => by simp only [Tensor.broadcastTo, (ih x).1]; exact (ih x).2 _⟩
    | slice x s => exact ⟨rfl, fun idx => (ih x).2 _⟩
    | transpose x ax => exact ⟨by simp only [Tensor.transpose, (ih x).1], fun idx => (ih x).2 _⟩
    | contiguous x => exact ih x
    | pad x d b a =>
      refine ⟨by simp only [Tensor.pad, (ih x).1], fun idx => ?_⟩
      simp only [Tensor.pad, (ih x).1]
      split
      · exact (ih x).2 _
      · exact hA.zero
    | dilate x d k =>
      refine ⟨by simp only [Tensor.dilate, (ih x).1], fun idx => ?_⟩
      simp only [Tensor.dilate]
      split
      · exact (ih x).2 _
      · exact hA.zero

theorem den_rel (hA : Respects R A1 A2) (h : GRel R g1 g2) (i : Nat) : (den A1 g1 i).shape = (den A2 g2 i).shape ∧ ∀ idx, R ((den A1 g1 i).get idx) ((den A2 g2 i).get idx) :=
  denF_rel hA h _ _

theorem mapL_eq {V W : Type} (f : V → W) (l : List (Nested V)) : Nested.mapL f l = l.map (Nested.map f) := by
  induction l with
  | nil => rfl
  | cons x l ih => simp [Nested.mapL, ih]

theorem toNested_map {V W : Type} (f : V → W) : ∀ (s : List Int) (t : List Int → V), (Tensor.toNestedAux s t).map f = Tensor.toNestedAux s fun i => f (t i) := by
  intro s
  induction s with
  | nil => intro t; rfl
  | cons d s ih =>
    intro t
    simp only [Tensor.toNestedAux, Nested.map, mapL_eq, List.map_map]
    congr 1
    exact List.map_congr_left fun i _ => ih _

theorem leaves_toNested {V : Type} {P : V → Prop} : ∀ (s : List Int) {t : List Int → V}, (∀ i, P (t i)) → ∀ v ∈ leaves (Tensor.toNestedAux s t), P v := by
  intro s
  induction s with
  | nil => intro t h v hv; simp only [Tensor.toNestedAux, leaves, List.mem_singleton] at hv; rw [hv]; exact h _
  | cons d s ih =>
    intro t h v hv
    simp only [Tensor.toNestedAux, leaves] at hv
    generalize irange d = l at hv
    induction l with
    | nil => cases hv
    | cons i l ihl =>
      simp only [List.map_cons, leavesL, List.mem_append] at hv
      rcases hv with hv | hv
      · exact ih (fun j => h _) v hv
      · exact ihl hv

/-- Tensors with related elements are related as nested lists. -/
theorem toNested_rel {T1 : Tensor V1} {T2 : Tensor V2} (hs : T1.shape = T2.shape) (h : ∀ idx, R (T1.get idx) (T2.get idx)) : RelatedLists R T1.toNested T2.toNested := by
  refine ⟨Tensor.toNestedAux T1.shape fun i => (T1.get i, T2.get i), ?_, ?_, leaves_toNested (P := fun p : V1 × V2 => R p.1 p.2) _ h⟩
  · rw [toNested_map]; rfl
  · rw [toNested_map, hs]; rfl

/-! ### calls -/

/-- Same exception, or the same array and related worlds. -/
def SRel (R : V1 → V2 → Prop) : Except Err (Out V1 × World V1) → Except Err (Out V2 × World V2) → Prop
  | .ok (o1, w1), .ok (o2, w2) => (match o1, o2 with
      | .arr i, .arr j => i = j
      | .unit, .unit => True
      | _, _ => False) ∧ WRel R w1 w2
  | .error e, .error e' => e = e'
  | _, _ => False

theorem arrays_map {V W : Type} (f : V → W) (c : Call V) : (c.map f).arrays = c.arrays := by cases c <;> rfl

theorem made_rel {w1 : World V1} {w2 : World V2} (h : WRel R w1 w2) {p : Nat × Graph V1} {q : Nat × Graph V2} (hp : PRel R p q) : SRel R (made w1 p) (made w2 q) :=
  ⟨hp.1, hp.2, h.grad⟩

theorem madeE_rel {w1 : World V1} {w2 : World V2} (h : WRel R w1 w2) {p : Except Err (Nat × Graph V1)} {q : Except Err (Nat × Graph V2)} (hp : ORel R p q) : SRel R (madeE w1 p) (madeE w2 q) := by
  match p, q, hp with
  | .ok p, .ok q, hp => exact made_rel h hp
  | .error _, .error _, rfl => rfl

/-- Calls that compute nothing. -/
def lazyCall {V : Type} : Call V → Bool
  | .materialize _ | .tolist _ => false
  | _ => true

theorem step_rel {b1 : Backend V1} {b2 : Backend V2} (hA : SameConstants R b1.A b2.A) {w1 : World V1} {w2 : World V2} (h : WRel R w1 w2) {c : Call (V1 × V2)} (hc : SameCall R b1.A b2.A c)
    (hl : lazyCall c = true) : SRel R (step b1 w1 (c.map Prod.fst)) (step b2 w2 (c.map Prod.snd)) := by
  unfold step
  rw [arrays_map, arrays_map, h.g.length]
  by_cases hin : ∀ a ∈ c.arrays, a < w2.g.length
  swap
  · rw [if_neg hin, if_neg hin]; rfl
  rw [if_pos hin, if_pos hin]
  clear hin
  unfold SameCall at hc
  cases c <;> simp only [Call.map, exec1]
  case array v => exact madeE_rel h (array_rel h.g hc.1)
  case arange n => exact madeE_rel h (arange_rel h.g n (hc.2 n rfl))
  case full s v => exact made_rel h (full_rel h.g s (hc.1 v (by simp [Call.numbers])))
  case fullLike a v => exact made_rel h (fullLike_rel h.g a (hc.1 v (by simp [Call.numbers])))
  case onesLike a => exact made_rel h (onesLike_rel hA h.g a)
  case zerosLike a => exact made_rel h (fullLike_rel h.g a hA.zero)
  case un op a => exact made_rel h (unary_rel h.g _ a)
  case bin op x y => exact madeE_rel h (binary_rel h.g _ x y)
  case binScalar op x v =>
    refine madeE_rel h ?_
    have := constScalar_rel (A1 := b1.A) (A2 := b2.A) h.g (hc.1 v (by simp [Call.numbers]))
    rw [this.1]
    exact binary_rel this.2 _ _ _
  case sum a ax kd => exact madeE_rel h (sum_rel h.g _ _ _)
  case getitem a s => exact madeE_rel h (getitem_rel h.g _ _)
  case broadcastTo a s => exact made_rel h (broadcastTo_rel h.g _ _)
  case reshape a s => exact madeE_rel h (reshape_rel h.g _ _)
  case T a => exact madeE_rel h (T_rel h.g _)
  case transpose a s => exact madeE_rel h (transpose_rel h.g _ _)
  case contiguous a => exact made_rel h (contiguous_rel h.g _)
  case pad a d x y => exact madeE_rel h (pad_rel h.g _ _ _ _)
  case dilate a d s => exact madeE_rel h (dilate_rel h.g _ _ _)
  case materialize => cases hl
  case tolist => cases hl
  case backward a =>
    have := backward_rel hA h a
    match hx : backward b1.A w1 a, hy : backward b2.A w2 a, this with
    | .ok w1', .ok w2', h' => exact ⟨trivial, h'⟩
    | .error _, .error _, rfl => rfl
  case grad a =>
    rw [h.grad]
    cases w2.grad a with
    | none => exact ⟨trivial, h⟩
    | some k => exact ⟨rfl, h⟩
  case clearGrad a => exact ⟨trivial, h.g, by simp only [h.grad]⟩
  case setGrad a k => exact ⟨trivial, h.g, by simp only [h.grad]⟩
  case reset => exact ⟨trivial, h.g, h.grad⟩

end Whale
