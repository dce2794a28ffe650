import Verif.Proofs.EmbedB
import Verif.Proofs.RelatedB
import Verif.Proofs.Strided
/-
Calls in a world and in a world that contains it; values, bases, reading back.
-/
namespace Whale
open Hist Bwd Mat
variable {V : Type} {ρ : Nat → Nat} {g1 g2 : Graph V}

/-- Same exception, or corresponding results in corresponding worlds. -/
def SEmb (ρ : Nat → Nat) : Except Err (Out V × World V) → Except Err (Out V × World V) → Prop
  | .ok (o, u), .ok (o', w) => o' = o.ren ρ ∧ WEmb ρ u w
  | .error e, .error e' => e = e'
  | _, _ => False

theorem arrays_ren (ρ : Nat → Nat) (c : Call V) : (c.ren ρ).arrays = c.arrays.map ρ := by cases c <;> rfl

theorem made_emb {u w : World V} (h : WEmb ρ u w) {p q : Nat × Graph V} (hp : PEmb ρ p q) : SEmb ρ (made u p) (made w q) :=
  ⟨by show Out.arr q.1 = .arr (ρ p.1); rw [hp.1], hp.2, h.grad⟩

theorem madeE_emb {u w : World V} (h : WEmb ρ u w) {p q : Except Err (Nat × Graph V)} (hp : OEmb ρ ρ p q) : SEmb ρ (madeE u p) (madeE w q) := by
  match p, q, hp with
  | .ok p, .ok q, hp => exact made_emb h hp
  | .error _, .error _, rfl => rfl

theorem step_emb (b : Backend V) {u w : World V} (hw : WF u.g) (h : WEmb ρ u w) {c : Call V} (hl : lazyCall c = true) : SEmb ρ (step b u c) (step b w (c.ren ρ)) := by
  unfold step
  rw [arrays_ren]
  by_cases hin : ∀ a ∈ c.arrays, a < u.g.length
  swap
  · rw [if_neg hin, if_neg (fun e => hin fun a ha => h.g.lt.1 (e _ (List.mem_map_of_mem ha)))]; rfl
  rw [if_pos hin, if_pos (fun a ha => by
    obtain ⟨x, hx, rfl⟩ := List.mem_map.1 ha
    exact h.g.lt.2 (hin x hx))]
  cases c <;> simp only [Call.ren, exec1]
  case array v => exact madeE_emb h (array_emb b.A h.g v)
  case arange n => exact madeE_emb h (arange_emb b.A h.g n)
  case full s v => exact made_emb h (full_emb b.A h.g s v)
  case fullLike a v => exact made_emb h (fullLike_emb b.A h.g a v)
  case onesLike a => exact made_emb h (onesLike_emb b.A h.g a)
  case zerosLike a => exact made_emb h (fullLike_emb b.A h.g a _)
  case un op a => exact made_emb h (unary_emb h.g _ a)
  case bin op x y => exact madeE_emb h (binary_emb h.g _ x y)
  case binScalar op x v =>
    refine madeE_emb h ?_
    have := constScalar_emb b.A h.g v
    rw [this.1]
    exact binary_emb this.2 _ _ _
  case sum a ax kd => exact madeE_emb h (sum_emb h.g _ _ _)
  case getitem a s => exact madeE_emb h (getitem_emb h.g _ _)
  case broadcastTo a s => exact made_emb h (broadcastTo_emb h.g _ _)
  case reshape a s => exact madeE_emb h (reshape_emb h.g _ _)
  case T a => exact madeE_emb h (T_emb h.g _)
  case transpose a s => exact madeE_emb h (transpose_emb h.g _ _)
  case contiguous a => exact made_emb h (contiguous_emb h.g _)
  case pad a d x y => exact madeE_emb h (pad_emb h.g _ _ _ _)
  case dilate a d s => exact madeE_emb h (dilate_emb h.g _ _ _)
  case materialize => cases hl
  case tolist => cases hl
  case backward a =>
    have := backward_emb b.A hw h (hin a (.head _))
    match hx : backward b.A u a, hy : backward b.A w (ρ a), this with
    | .ok w1', .ok w2', h' => exact ⟨rfl, h'⟩
    | .error _, .error _, rfl => rfl
  case grad a =>
    rw [h.grad]
    cases u.grad a with
    | none => exact ⟨rfl, h⟩
    | some k => exact ⟨rfl, h⟩
  case clearGrad a =>
    refine ⟨rfl, h.g, fun i => ?_⟩
    dsimp only
    by_cases e : i = a
    · simp [e]
    · rw [if_neg e, if_neg (fun e' => e (h.g.inj.1 e'))]; exact h.grad i
  case setGrad a k =>
    refine ⟨rfl, h.g, fun i => ?_⟩
    dsimp only
    by_cases e : i = a
    · simp [e]
    · rw [if_neg e, if_neg (fun e' => e (h.g.inj.1 e'))]; exact h.grad i
  case reset => exact ⟨rfl, h.g, h.grad⟩

theorem baseF_emb (h : GEmb ρ g1 g2) : ∀ (n i : Nat), baseF g2 n (ρ i) = ρ (baseF g1 n i) := by
  intro n
  induction n with
  | zero => intro i; rfl
  | succ n ih =>
    intro i
    simp only [baseF]
    rw [h.ctx, Ctx.ren_op, Ctx.ren_inputs]
    split
    · cases (g1.ctx i).inputs with
      | nil => rfl
      | cons x l => exact ih x
    · rfl

theorem base_emb (h : GEmb ρ g1 g2) (hw : WF g1) {i : Nat} (hi : i < g1.length) : base g2 (ρ i) = ρ (base g1 i) := by
  unfold base
  rw [baseF_emb h, baseF_fuel hw hi (f1 := ρ i + 1) (f2 := i + 1) (by have := h.le i; omega) (by omega)]

theorem denF_emb (A : Scalar V) (h : GEmb ρ g1 g2) : ∀ (n i : Nat), denF A g2 n (ρ i) = denF A g1 n i := by
  intro n
  induction n with
  | zero => intro i; rfl
  | succ n ih =>
    intro i
    simp only [denF]
    rw [h.ctx, h.shape, h.nd]
    cases g1.ctx i <;> simp only [Ctx.ren, ih, Node.ren]

theorem den_emb (A : Scalar V) (h : GEmb ρ g1 g2) (hw : WF g1) {i : Nat} (hi : i < g1.length) : den A g2 (ρ i) = den A g1 i := by
  unfold den
  rw [denF_emb A h, denF_fuel A hw hi (f1 := ρ i + 1) (f2 := i + 1) (by have := h.le i; omega) (by omega)]

end Whale
