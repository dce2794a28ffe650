import Verif.Proofs.Embed
import Verif.Proofs.Observe
/-
The same calls, including `backward`, in a world and in a world that contains it.
-/
namespace Whale
open Hist Bwd
variable {V : Type} {ρ : Nat → Nat} {g1 g2 : Graph V}

theorem PEmb.elim {β : Type} {rm : β → β} {p q : Nat × Graph V} (h : PEmb ρ p q) {f f' : Nat × Graph V → Except Err (β × Graph V)}
    (hf : ∀ a g1 g2, GEmb ρ g1 g2 → OEmb ρ rm (f (a, g1)) (f' (ρ a, g2))) : OEmb ρ rm (f p) (f' q) := by
  obtain ⟨a, g1⟩ := p
  obtain ⟨b, g2⟩ := q
  obtain ⟨h1, h2⟩ := h
  cases h1
  exact hf _ _ _ h2

theorem sumRule_emb (h : GEmb ρ g1 g2) (x : Nat) (ax : List Nat) (kd : Bool) (gr : Nat) : OEmb ρ (List.map ρ) (sumRule g1 x ax kd gr) (sumRule g2 (ρ x) ax kd (ρ gr)) := by
  unfold sumRule
  rw [h.shape]
  have hb : ∀ (a : Nat) (g1 g2 : Graph V), GEmb ρ g1 g2 → OEmb ρ (List.map ρ) (.ok ([(ND.broadcastTo g1 a (g1.shape x)).1], (ND.broadcastTo g1 a (g1.shape x)).2))
      (.ok ([(ND.broadcastTo g2 (ρ a) (g2.shape (ρ x))).1], (ND.broadcastTo g2 (ρ a) (g2.shape (ρ x))).2)) := by
    intro a g1 g2 h
    rw [h.shape]
    have := broadcastTo_emb h a (g1.shape x)
    exact ⟨by rw [this.1]; rfl, this.2⟩
  dsimp only
  split
  · exact hb _ _ _ h
  · exact (reshape_emb h _ _).bind fun a g1 g2 h => hb _ _ _ h

theorem broadcastRule_emb (h : GEmb ρ g1 g2) (x gr : Nat) : OEmb ρ (List.map ρ) (broadcastRule g1 x gr) (broadcastRule g2 (ρ x) (ρ gr)) := by
  unfold broadcastRule
  rw [h.shape, h.ndim]
  refine (sum_emb h _ _ _).bind fun a g1 g2 h => ?_
  dsimp only
  split
  · exact ⟨rfl, h⟩
  · rw [h.shape]
    exact (reshape_emb h _ _).bind fun a g1 g2 h => ⟨rfl, h⟩

theorem sliceLoop_emb (shape : List Int) (subs : List Sub) : ∀ (d : Nat) {g1 g2 : Graph V} (_ : GEmb ρ g1 g2) (gr : Nat),
    OEmb ρ ρ (sliceLoop shape subs d g1 gr) (sliceLoop shape subs d g2 (ρ gr)) := by
  induction subs with
  | nil => intro d g1 g2 h gr; exact ⟨rfl, h⟩
  | cons s subs ih =>
    intro d g1 g2 h gr
    cases s with
    | int s =>
      simp only [sliceLoop]
      rw [h.shape]
      refine (reshape_emb h _ _).bind fun a g1 g2 h => ?_
      exact (pad_emb h _ _ _ _).bind fun a g1 g2 h => ih _ h a
    | slice a b c =>
      simp only [sliceLoop]
      have hp : ∀ (k : Nat) (g1 g2 : Graph V), GEmb ρ g1 g2 → OEmb ρ ρ
          (if a > 0 ∨ geti shape d - a - geti (g1.shape k) d > 0 then (do
            let x ← ND.pad g1 k d a (geti shape d - a - geti (g1.shape k) d)
            sliceLoop shape subs (d + 1) x.2 x.1) else sliceLoop shape subs (d + 1) g1 k)
          (if a > 0 ∨ geti shape d - a - geti (g2.shape (ρ k)) d > 0 then (do
            let x ← ND.pad g2 (ρ k) d a (geti shape d - a - geti (g2.shape (ρ k)) d)
            sliceLoop shape subs (d + 1) x.2 x.1) else sliceLoop shape subs (d + 1) g2 (ρ k)) := by
        intro k g1 g2 h
        rw [h.shape]
        split
        · exact (pad_emb h _ _ _ _).bind fun k g1 g2 h => ih _ h k
        · exact ih _ h k
      split
      · exact (dilate_emb h _ _ _).bind fun k g1 g2 h => hp k g1 g2 h
      · exact hp gr g1 g2 h

theorem sliceRule_emb (h : GEmb ρ g1 g2) (x : Nat) (subs : List Sub) (gr : Nat) : OEmb ρ (List.map ρ) (sliceRule g1 x subs gr) (sliceRule g2 (ρ x) subs (ρ gr)) := by
  unfold sliceRule
  rw [h.shape]
  exact (sliceLoop_emb _ _ _ h _).bind fun a g1 g2 h => ⟨rfl, h⟩

theorem padRule_emb (h : GEmb ρ g1 g2) (x : Nat) (d b : Int) (gr : Nat) : OEmb ρ (List.map ρ) (padRule g1 x d b gr) (padRule g2 (ρ x) d b (ρ gr)) := by
  unfold padRule
  rw [h.shape, h.ndim]
  exact (getitem_emb h _ _).bind fun a g1 g2 h => ⟨rfl, h⟩

theorem dilateRule_emb (h : GEmb ρ g1 g2) (d k : Int) (gr : Nat) : OEmb ρ (List.map ρ) (dilateRule g1 d k gr) (dilateRule g2 d k (ρ gr)) := by
  unfold dilateRule
  rw [h.ndim]
  exact (getitem_emb h _ _).bind fun a g1 g2 h => ⟨rfl, h⟩

theorem unaryRule_emb (A : Scalar V) (h : GEmb ρ g1 g2) (op : Ops) (t x gr : Nat) : OEmb ρ (List.map ρ) (unaryRule A g1 op t x gr) (unaryRule A g2 op (ρ t) (ρ x) (ρ gr)) := by
  unfold unaryRule
  split
  · exact (unary_emb h _ _).elim (f := fun p => pure ([p.1], p.2)) (f' := fun p => pure ([p.1], p.2)) fun a g1 g2 h => ⟨rfl, h⟩
  · exact (unary_emb h _ _).elim (f := fun p => (do let (r, g) ← ND.binary p.2 .Mul p.1 gr; pure ([r], g))) (f' := fun p => (do let (r, g) ← ND.binary p.2 .Mul p.1 (ρ gr); pure ([r], g)))
      fun a g1 g2 h => (binary_emb h _ _ _).bind fun a g1 g2 h => ⟨rfl, h⟩
  · exact (unary_emb h _ _).elim (f := fun p => (do let (r, g) ← ND.binary (ND.unary p.2 .Neg p.1).2 .Mul (ND.unary p.2 .Neg p.1).1 gr; pure ([r], g)))
      (f' := fun p => (do let (r, g) ← ND.binary (ND.unary p.2 .Neg p.1).2 .Mul (ND.unary p.2 .Neg p.1).1 (ρ gr); pure ([r], g)))
      fun a g1 g2 h => (unary_emb h .Neg a).elim (f := fun p => (do let (r, g) ← ND.binary p.2 .Mul p.1 gr; pure ([r], g))) (f' := fun p => (do let (r, g) ← ND.binary p.2 .Mul p.1 (ρ gr); pure ([r], g)))
      fun a g1 g2 h => (binary_emb h _ _ _).bind fun a g1 g2 h => ⟨rfl, h⟩
  · exact (binary_emb h _ _ _).bind fun a g1 g2 h => ⟨rfl, h⟩
  · exact (binary_emb h _ _ _).bind fun a g1 g2 h => ⟨rfl, h⟩
  · exact (constScalar_emb A h _).elim (f := fun p => (do let (m, g) ← ND.binary p.2 .Mul t p.1; let (r, g) ← ND.binary g .Truediv gr m; pure ([r], g)))
      (f' := fun p => (do let (m, g) ← ND.binary p.2 .Mul (ρ t) p.1; let (r, g) ← ND.binary g .Truediv (ρ gr) m; pure ([r], g)))
      fun a g1 g2 h => (binary_emb h _ _ _).bind fun a g1 g2 h => (binary_emb h _ _ _).bind fun a g1 g2 h => ⟨rfl, h⟩
  · rfl

theorem binaryRule_emb (A : Scalar V) (h : GEmb ρ g1 g2) (op : Ops) (l r gr : Nat) : OEmb ρ (List.map ρ) (binaryRule A g1 op l r gr) (binaryRule A g2 op (ρ l) (ρ r) (ρ gr)) := by
  unfold binaryRule
  split
  · exact ⟨rfl, h⟩
  · exact (unary_emb h .Neg gr).elim (f := fun p => pure ([gr, p.1], p.2)) (f' := fun p => pure ([ρ gr, p.1], p.2)) fun a g1 g2 h => ⟨rfl, h⟩
  · exact (binary_emb h _ _ _).bind fun a g1 g2 h => (binary_emb h _ _ _).bind fun b g1 g2 h => ⟨rfl, h⟩
  · refine (binary_emb h _ _ _).bind fun a g1 g2 h => ?_
    exact (unary_emb h .Neg l).elim
      (f := fun p => (do let (q, g) ← ND.binary (ND.constScalar A p.2 (A.host 2)).2 .Pow r (ND.constScalar A p.2 (A.host 2)).1
                         let (q, g) ← ND.binary g .Truediv p.1 q; let (b, g) ← ND.binary g .Mul gr q; pure ([a, b], g)))
      (f' := fun p => (do let (q, g) ← ND.binary (ND.constScalar A p.2 (A.host 2)).2 .Pow (ρ r) (ND.constScalar A p.2 (A.host 2)).1
                          let (q, g) ← ND.binary g .Truediv p.1 q; let (b, g) ← ND.binary g .Mul (ρ gr) q; pure ([ρ a, b], g)))
      fun n g1 g2 h => (constScalar_emb A h _).elim
        (f := fun p => (do let (q, g) ← ND.binary p.2 .Pow r p.1; let (q, g) ← ND.binary g .Truediv n q; let (b, g) ← ND.binary g .Mul gr q; pure ([a, b], g)))
        (f' := fun p => (do let (q, g) ← ND.binary p.2 .Pow (ρ r) p.1; let (q, g) ← ND.binary g .Truediv (ρ n) q; let (b, g) ← ND.binary g .Mul (ρ gr) q; pure ([ρ a, b], g)))
        fun c g1 g2 h => (binary_emb h _ _ _).bind fun q g1 g2 h => (binary_emb h _ _ _).bind fun q g1 g2 h => (binary_emb h _ _ _).bind fun b g1 g2 h => ⟨rfl, h⟩
  · exact (constScalar_emb A h _).elim
      (f := fun p => (do
        let (m, g) ← ND.binary p.2 .Sub r p.1; let (p, g) ← ND.binary g .Pow l m; let (q, g) ← ND.binary g .Mul r p; let (a, g) ← ND.binary g .Mul q gr; let (p, g) ← ND.binary g .Pow l r
        let (q, g) ← ND.binary (ND.unary g .Log l).2 .Mul p (ND.unary g .Log l).1; let (b, g) ← ND.binary g .Mul q gr; pure ([a, b], g)))
      (f' := fun p => (do
        let (m, g) ← ND.binary p.2 .Sub (ρ r) p.1; let (p, g) ← ND.binary g .Pow (ρ l) m; let (q, g) ← ND.binary g .Mul (ρ r) p; let (a, g) ← ND.binary g .Mul q (ρ gr)
        let (p, g) ← ND.binary g .Pow (ρ l) (ρ r)
        let (q, g) ← ND.binary (ND.unary g .Log (ρ l)).2 .Mul p (ND.unary g .Log (ρ l)).1; let (b, g) ← ND.binary g .Mul q (ρ gr); pure ([a, b], g)))
      fun c g1 g2 h => (binary_emb h _ _ _).bind fun m g1 g2 h => (binary_emb h _ _ _).bind fun p g1 g2 h => (binary_emb h _ _ _).bind fun q g1 g2 h =>
        (binary_emb h _ _ _).bind fun a g1 g2 h => (binary_emb h _ _ _).bind fun p g1 g2 h =>
        (unary_emb h .Log l).elim (f := fun s => (do let (q, g) ← ND.binary s.2 .Mul p s.1; let (b, g) ← ND.binary g .Mul q gr; pure ([a, b], g)))
          (f' := fun s => (do let (q, g) ← ND.binary s.2 .Mul (ρ p) s.1; let (b, g) ← ND.binary g .Mul q (ρ gr); pure ([ρ a, b], g)))
          fun lg g1 g2 h => (binary_emb h _ _ _).bind fun q g1 g2 h => (binary_emb h _ _ _).bind fun b g1 g2 h => ⟨rfl, h⟩
  · rfl

theorem rule_emb (A : Scalar V) (h : GEmb ρ g1 g2) (t gr : Nat) : OEmb ρ (List.map ρ) (rule A g1 t gr) (rule A g2 (ρ t) (ρ gr)) := by
  unfold rule
  rw [h.ctx]
  cases g1.ctx t with
  | const => rfl
  | unary op x => exact unaryRule_emb A h _ _ _ _
  | binary op l r => exact binaryRule_emb A h _ _ _ _
  | sum x ax kd => exact sumRule_emb h _ _ _ _
  | reshape x s => dsimp only [Ctx.ren]; rw [h.shape]; exact (reshape_emb h _ _).bind fun a g1 g2 h => ⟨rfl, h⟩
  | broadcast x s => exact broadcastRule_emb h _ _
  | slice x s => exact sliceRule_emb h _ _ _
  | transpose x ax => exact (transpose_emb h _ _).bind fun a g1 g2 h => ⟨rfl, h⟩
  | contiguous x => exact ⟨rfl, h⟩
  | pad x d b a => exact padRule_emb h _ _ _ _
  | dilate x d s => exact dilateRule_emb h _ _ _

/-! ### worlds -/

/-- The arrays and gradients of one world among those of the other. -/
structure WEmb (ρ : Nat → Nat) (u w : World V) : Prop where
  g : GEmb ρ u.g w.g
  grad : ∀ i, w.grad (ρ i) = (u.grad i).map ρ

def EWEmb (ρ : Nat → Nat) : Except Err (World V) → Except Err (World V) → Prop
  | .ok u, .ok w => WEmb ρ u w
  | .error e, .error e' => e = e'
  | _, _ => False

theorem foldlM_emb {α β : Type} {rn : α → β} {f : World V → α → Except Err (World V)} {f' : World V → β → Except Err (World V)} (hf : ∀ a u w, WEmb ρ u w → EWEmb ρ (f u a) (f' w (rn a))) :
    ∀ (l : List α) {u w}, WEmb ρ u w → EWEmb ρ (l.foldlM f u) ((l.map rn).foldlM f' w)
  | [], _, _, h => h
  | a :: l, u, w, h => by
    rw [List.map_cons, List.foldlM_cons, List.foldlM_cons]
    have := hf a _ _ h
    match hx : f u a, hy : f' w (rn a), this with
    | .ok w1', .ok w2', h' => exact foldlM_emb hf l h'
    | .error _, .error _, rfl => rfl

theorem upd_emb (hm : StrictMono ρ) {f1 f2 : Nat → Option Nat} (h : ∀ i, f2 (ρ i) = (f1 i).map ρ) (a k : Nat) : ∀ i, Mat.upd f2 (ρ a) (ρ k) (ρ i) = (Mat.upd f1 a k i).map ρ := by
  intro i
  unfold Mat.upd
  by_cases e : i = a
  · simp [e]
  · rw [if_neg e, if_neg (fun e' => e (hm.injective e'))]; exact h i

theorem accum_emb {u w : World V} (h : WEmb ρ u w) (p : Nat × Nat) : EWEmb ρ (accum u p) (accum w (ρ p.1, ρ p.2)) := by
  unfold accum
  rw [h.grad]
  cases hg : u.grad p.1 with
  | none => exact ⟨h.g, upd_emb h.g.mono h.grad _ _⟩
  | some o =>
    have := binary_emb h.g .Add o p.2
    dsimp only [Option.map]
    match hx : ND.binary u.g .Add o p.2, hy : ND.binary w.g .Add (ρ o) (ρ p.2), this with
    | .ok (a, g1), .ok (_, g2), ⟨rfl, h'⟩ => exact ⟨h', upd_emb h.g.mono h.grad _ _⟩
    | .error _, .error _, rfl => rfl

theorem visit_emb (A : Scalar V) {u w : World V} (h : WEmb ρ u w) (t : Nat) : EWEmb ρ (visit A u t) (visit A w (ρ t)) := by
  unfold visit
  rw [h.grad, h.g.ctx, Ctx.ren_inputs]
  cases u.grad t with
  | none => rfl
  | some gr =>
    have := rule_emb A h.g t gr
    dsimp only [Option.map]
    match hx : rule A u.g t gr, hy : rule A w.g (ρ t) (ρ gr), this with
    | .ok (a, g1), .ok (_, g2), ⟨rfl, h'⟩ =>
      have hz : ((u.g.ctx t).inputs.map ρ).zip (a.map ρ) = ((u.g.ctx t).inputs.zip a).map fun p => (ρ p.1, ρ p.2) := by
        rw [List.zip_map]; rfl
      show EWEmb ρ (List.foldlM accum { u with g := g1 } _) (List.foldlM accum { w with g := g2 } (((u.g.ctx t).inputs.map ρ).zip (a.map ρ)))
      rw [hz]
      exact foldlM_emb (fun p u w h => accum_emb h p) _ ⟨h', h.grad⟩
    | .error _, .error _, rfl => rfl

theorem seed_emb (A : Scalar V) {u w : World V} (h : WEmb ρ u w) (y : Nat) : WEmb ρ (seed A u y) (seed A w (ρ y)) := by
  unfold seed
  rw [h.grad]
  cases hg : u.grad y with
  | some _ => exact h
  | none =>
    have := onesLike_emb A h.g y
    refine ⟨this.2, ?_⟩
    show ∀ i, Mat.upd w.grad (ρ y) (ND.onesLike A w.g (ρ y)).1 (ρ i) = _
    rw [this.1]
    exact upd_emb h.g.mono h.grad _ _

theorem foldlM_imp {σ α : Type} {f f' : σ → α → Except Err σ} (hf : ∀ s a s', f s a = .ok s' → f' s a = .ok s') : ∀ (l : List α) (s s' : σ), l.foldlM f s = .ok s' → l.foldlM f' s = .ok s'
  | [], _, _, h => h
  | a :: l, s, s', h => by
    rw [List.foldlM_cons] at h ⊢
    obtain ⟨s1, h1, h2⟩ := except_bind_ok h
    rw [hf _ _ _ h1]
    exact foldlM_imp hf l s1 s' h2

/-- Folding over corresponding lists. -/
theorem foldlM_ren {σ τ α β : Type} {rs : σ → τ} {ra : α → β} {f : σ → α → Except Err σ} {f' : τ → β → Except Err τ} (hf : ∀ s a s', f s a = .ok s' → f' (rs s) (ra a) = .ok (rs s')) :
    ∀ (l : List α) (s s' : σ), l.foldlM f s = .ok s' → (l.map ra).foldlM f' (rs s) = .ok (rs s')
  | [], _, _, h => by cases h; rfl
  | a :: l, s, s', h => by
    rw [List.foldlM_cons] at h
    rw [List.map_cons, List.foldlM_cons]
    obtain ⟨s1, h1, h2⟩ := except_bind_ok h
    rw [hf _ _ _ h1]
    exact foldlM_ren hf l s1 s' h2

theorem dfs_emb (h : GEmb ρ g1 g2) : ∀ (n m t : Nat) (st st' : List Nat × List Nat), n ≤ m → dfs g1 n t st = .ok st' →
    dfs g2 m (ρ t) (st.1.map ρ, st.2.map ρ) = .ok (st'.1.map ρ, st'.2.map ρ) := by
  intro n
  induction n with
  | zero => intro m t st st' _ h; cases h
  | succ n ih =>
    intro m t st st' hm hd
    obtain ⟨seen, funcs⟩ := st
    obtain ⟨m, rfl⟩ : ∃ k, m = k + 1 := ⟨m - 1, by omega⟩
    simp only [dfs] at hd ⊢
    have hc : ((g2.ctx (ρ t)).inputs.isEmpty ∨ ρ t ∈ seen.map ρ) ↔ ((g1.ctx t).inputs.isEmpty ∨ t ∈ seen) := by
      rw [h.ctx, Ctx.ren_inputs]
      simp [h.mono.injective.eq_iff]
    split at hd
    · rename_i hc'
      cases hd
      rw [if_pos (hc.2 hc')]; rfl
    · rename_i hc'
      rw [if_neg (fun e => hc' (hc.1 e))]
      obtain ⟨⟨s1, f1⟩, h1, h2⟩ := except_bind_ok hd
      cases h2
      have := foldlM_ren (rs := fun st : List Nat × List Nat => (st.1.map ρ, st.2.map ρ)) (ra := ρ) (f' := fun st i => dfs g2 m i st) (fun s a s' hs => ih m a s s' (by omega) hs) _ _ _ h1
      rw [h.ctx, Ctx.ren_inputs]
      dsimp only at this
      rw [List.map_cons] at this
      rw [this]
      simp [bind, Except.bind, pure, Except.pure]

theorem seed_ext (A : Scalar V) (u : World V) (y : Nat) : Ext u.g (seed A u y).g := by
  unfold seed
  split
  · exact .refl _
  · exact ⟨_, rfl⟩

theorem backward_emb (A : Scalar V) {u w : World V} (hw : WF u.g) (h : WEmb ρ u w) {y : Nat} (hy : y < u.g.length) : EWEmb ρ (backward A u y) (backward A w (ρ y)) := by
  unfold backward
  have hs := seed_emb A h y
  dsimp only
  obtain ⟨seen, funcs, hd, _⟩ := dfs_root hw hy
  have hd' : dfs (seed A u y).g (y + 1) y ([], []) = .ok (seen, funcs) := by rw [dfs_ext (seed_ext A u y) hw _ _ _ hy]; exact hd
  have he := dfs_emb hs.g _ (ρ y + 1) y _ _ (by have := h.g.le y; omega) hd'
  simp only [List.map_nil] at he
  rw [hd', he]
  show EWEmb ρ (List.foldlM (visit A) (seed A u y) funcs.reverse) (List.foldlM (visit A) (seed A w (ρ y)) (funcs.map ρ).reverse)
  rw [← List.map_reverse]
  exact foldlM_emb (fun t u w h => visit_emb A h t) _ hs

end Whale
