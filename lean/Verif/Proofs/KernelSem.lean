import Verif.Model.Kernel
import Verif.Proofs.Topo
/-
Executing generated index and value code.
-/
namespace Whale
open Algo Codegen Kern
variable {V : Type} [Lim]

/-! ### environments -/

/-- `σ'` has everything `σ` has. -/
def Le (σ σ' : KEnv V) : Prop := ∀ y v, σ y = some v → σ' y = some v

theorem Le.refl (σ : KEnv V) : Le σ σ := fun _ _ h => h
theorem Le.trans {a b c : KEnv V} (h : Le a b) (k : Le b c) : Le a c := fun y v hv => k y v (h y v hv)

/-- `y` is one of the temporaries numbered `n .. n'-1`. -/
def InTmp (n n' : Nat) (y : VName) : Prop := ∃ k, y = .tmp k ∧ n ≤ k ∧ k < n'

/-- `σ'` differs from `σ` only in temporaries `n .. n'-1`. -/
def Off (n n' : Nat) (σ σ' : KEnv V) : Prop := ∀ y, ¬ InTmp n n' y → σ' y = σ y

/-- Temporaries from `n` on are not declared yet. -/
def FreshFrom (n : Nat) (σ : KEnv V) : Prop := ∀ k, n ≤ k → σ (.tmp k) = none

theorem Off.refl (n n' : Nat) (σ : KEnv V) : Off n n' σ σ := fun _ _ => rfl

theorem Off.trans {n n1 n' : Nat} {a b c : KEnv V} (h : Off n n1 a b) (k : Off n1 n' b c) (h1 : n ≤ n1) (h2 : n1 ≤ n') : Off n n' a c := by
  intro y hy
  rw [k y (fun ⟨j, e, l, u⟩ => hy ⟨j, e, by omega, u⟩), h y (fun ⟨j, e, l, u⟩ => hy ⟨j, e, l, by omega⟩)]

theorem Off.fresh {n n' : Nat} {a b : KEnv V} (h : Off n n' a b) (hf : FreshFrom n a) (hn : n ≤ n') : FreshFrom n' b := by
  intro k hk
  rw [h _ (fun ⟨j, e, l, u⟩ => by cases e; omega)]
  exact hf k (by omega)

theorem Off.le {n n' : Nat} {a b : KEnv V} (h : Off n n' a b) (hf : FreshFrom n a) : Le a b := by
  intro y v hv
  rw [h y]
  · exact hv
  · rintro ⟨k, rfl, l, _⟩
    rw [hf k l] at hv; cases hv

theorem Off.set {n n' : Nat} {a b : KEnv V} (h : Off n n' a b) (x : VName) (v : Val V) : Off n n' (a.set x v) (b.set x v) := by
  intro y hy
  unfold KEnv.set
  split
  · rfl
  · exact h y hy

theorem Off.set_tmp {n : Nat} (a : KEnv V) (v : Val V) : Off n (n + 1) a (a.set (.tmp n) v) := by
  intro y hy
  unfold KEnv.set
  split
  · rename_i e; exact absurd ⟨n, e, Nat.le_refl _, by omega⟩ hy
  · rfl

theorem Off.widen {n n' m m' : Nat} {a b : KEnv V} (h : Off n n' a b) (h1 : m ≤ n) (h2 : n' ≤ m') : Off m m' a b := by
  intro y hy
  exact h y (fun ⟨j, e, l, u⟩ => hy ⟨j, e, by omega, by omega⟩)

theorem set_same (σ : KEnv V) (x : VName) (v : Val V) : σ.set x v x = some v := by simp [KEnv.set]
theorem set_ne (σ : KEnv V) {x y : VName} (v : Val V) (h : y ≠ x) : σ.set x v y = σ y := by simp [KEnv.set, h]

/-- Leaving a block in which only temporaries were declared. -/
theorem leave_off {n n' : Nat} {a b : KEnv V} (h : Off n n' a b) (hf : FreshFrom n a) : KEnv.leave a b = a := by
  funext y
  unfold KEnv.leave
  split
  · rename_i hy
    obtain ⟨v, hv⟩ := Option.isSome_iff_exists.1 hy
    rw [hv]; exact h.le hf y v hv
  · rename_i hy
    cases hy' : a y with
    | none => rfl
    | some v => rw [hy'] at hy; exact absurd rfl hy

theorem evalKI_le {ar : IntArith} {σ σ' : KEnv V} (h : Le σ σ') {e : KI} {v : Int} (he : evalKI ar σ e = some v) : evalKI ar σ' e = some v := by
  induction e generalizing v with
  | var x =>
    simp only [evalKI] at he ⊢
    cases hx : σ x with
    | none => rw [hx] at he; cases he
    | some w => rw [hx] at he; rw [h x w hx]; exact he
  | lit c => exact he
  | bin op l r ihl ihr =>
    simp only [evalKI, Option.bind_eq_bind, Option.bind_eq_some_iff] at he ⊢
    obtain ⟨a, ha, b, hb, hv⟩ := he
    exact ⟨a, ihl ha, b, ihr hb, hv⟩

theorem evalKD_le {m : Machine V} {σ σ' : KEnv V} (h : Le σ σ') {e : KD} {v : V} (he : evalKD m σ e = some v) : evalKD m σ' e = some v := by
  induction e generalizing v with
  | var x =>
    simp only [evalKD] at he ⊢
    cases hx : σ x with
    | none => rw [hx] at he; cases he
    | some w => rw [hx] at he; rw [h x w hx]; exact he
  | lit c => exact he
  | zero b => exact he
  | un op e ih =>
    simp only [evalKD, Option.bind_eq_bind, Option.bind_eq_some_iff] at he ⊢
    obtain ⟨a, ha, hv⟩ := he
    exact ⟨a, ih ha, hv⟩
  | bin op l r ihl ihr =>
    simp only [evalKD, Option.bind_eq_bind, Option.bind_eq_some_iff] at he ⊢
    obtain ⟨a, ha, b, hb, hv⟩ := he
    exact ⟨a, ihl ha, b, ihr hb, hv⟩
  | read a i =>
    simp only [evalKD, Option.bind_eq_bind, Option.bind_eq_some_iff] at he ⊢
    obtain ⟨l, hl, j, hj, hv⟩ := he
    exact ⟨l, hl, j, evalKI_le h hj, hv⟩

/-- Loop variables have their values in the kernel environment. -/
def Bound (S : List LoopIndex) (ρ : LEnv) (σ : KEnv V) : Prop := ∀ l ∈ S, ∀ v, ρ l = some v → σ l.name = some (.I v)

theorem Bound.le {S : List LoopIndex} {ρ : LEnv} {σ σ' : KEnv V} (h : Bound S ρ σ) (k : Le σ σ') : Bound S ρ σ' :=
  fun l hl v hv => k _ _ (h l hl v hv)

/-! ### arithmetic -/

/-- The arithmetic has no limit other than the one the proof is about. -/
def LimOK (ar : IntArith) : Prop := ∀ m ∈ ar.lim, Lim.lim = some m

/-- On the operands that occur, Python and C arithmetic agree with the checked operation. -/
theorem op_agree {ar : IntArith} (hL : LimOK ar) {op : Ops} {a b v : Int} (h : iop op a b = some v) :
    iarith ar op a b = some v := by
  obtain ⟨h, hfit⟩ := iop_inv h
  have hdiv : ∀ {a b : Int}, 0 ≤ a → 0 < b → Int.fdiv a b = a / b ∧ Int.fmod a b = a % b ∧ Int.tdiv a b = a / b ∧ Int.tmod a b = a % b := by
    intro a b h0 h1
    refine ⟨Int.fdiv_eq_ediv_of_nonneg _ (by omega), Int.fmod_eq_emod_of_nonneg _ (by omega), Int.tdiv_eq_ediv_of_nonneg h0, Int.tmod_eq_emod_of_nonneg h0⟩
  have key : pyOp op a b = some v ∧ cOp op a b = some v := by
    cases op <;> simp only [iop0, reduceCtorEq] at h
    case Add => simpa [cOp, pyOp] using h
    case Sub => simpa [cOp, pyOp] using h
    case Mul => simpa [cOp, pyOp] using h
    case Floordiv =>
      split at h
      · rename_i hc
        obtain ⟨h1, h2, h3, h4⟩ := hdiv hc.1 hc.2
        have : b ≠ 0 := by omega
        simp [cOp, pyOp, this, h1, h3]; simpa using h
      · cases h
    case Mod =>
      split at h
      · rename_i hc
        obtain ⟨h1, h2, h3, h4⟩ := hdiv hc.1 hc.2
        have : b ≠ 0 := by omega
        simp [cOp, pyOp, this, h2, h4]; simpa using h
      · cases h
    case And =>
      split at h
      · rename_i hc
        obtain ⟨h1, h2⟩ := hc
        rcases h1 with rfl | rfl <;> rcases h2 with rfl | rfl <;> simp [cOp, pyOp] <;> simpa using h
      · cases h
    case Eq => simpa [cOp, pyOp] using h
    case Ge => simpa [cOp, pyOp] using h
    case Lt => simpa [cOp, pyOp] using h
    case Le => simpa [cOp, pyOp] using h
  cases ar with
  | python => exact key.1
  | c => exact key.2
  | strict => simp [iarith, key.1, key.2]
  | bounded m =>
    have := hfit m (hL m rfl)
    simp [iarith, key.1, key.2, this]

theorem idxOp_render {op : Ops} (h : idxOp op = true) : renderBin op = true := by cases op <;> simp_all [idxOp, renderBin]

/-! ### index code -/

theorem genI_gen {S : List LoopIndex} {e : IExpr} (h : IWF S e) (n : Nat) : ∃ s k n', genI e n = .ok (s, k, n') ∧ n ≤ n' := by
  induction e generalizing n with
  | index l => exact ⟨_, _, n, rfl, Nat.le_refl _⟩
  | const c => exact ⟨_, _, n, rfl, Nat.le_refl _⟩
  | bin op l r ihl ihr =>
    obtain ⟨s1, k1, n1, e1, h1⟩ := ihl h.2.1 n
    obtain ⟨s2, k2, n2, e2, h2⟩ := ihr h.2.2 n1
    refine ⟨.seq s1 (.seq s2 (.initI (.tmp n2) (.bin op k1 k2))), .var (.tmp n2), n2 + 1, ?_, by omega⟩
    simp only [genI, idxOp_render h.1, e1, e2, bind, Except.bind, pure, Except.pure]
    simp

theorem genIs_gen {S : List LoopIndex} {es : List IExpr} (h : ∀ e ∈ es, IWF S e) (n : Nat) : ∃ s ks n', genIs es n = .ok (s, ks, n') ∧ n ≤ n' := by
  induction es generalizing n with
  | nil => exact ⟨_, _, n, rfl, Nat.le_refl _⟩
  | cons e es ih =>
    obtain ⟨s1, k1, n1, e1, h1⟩ := genI_gen (h e (by simp)) n
    obtain ⟨s2, k2, n2, e2, h2⟩ := ih (fun x hx => h x (by simp [hx])) n1
    exact ⟨.seq s1 s2, k1 :: k2, n2, by simp only [genIs, e1, e2, bind, Except.bind, pure, Except.pure], by omega⟩

/-- Running code: no writes, no return, only temporaries `n..n'-1` touched. -/
def Runs0 (m : Machine V) (s : Stmt) (n n' : Nat) (σ σ' : KEnv V) : Prop :=
  exec m s σ = some ⟨σ', [], false⟩ ∧ Off n n' σ σ'

theorem Runs0.seq {m : Machine V} {s t : Stmt} {n n1 n' : Nat} {a b c : KEnv V} (h : Runs0 m s n n1 a b) (k : Runs0 m t n1 n' b c)
    (h1 : n ≤ n1) (h2 : n1 ≤ n') : Runs0 m (.seq s t) n n' a c := by
  refine ⟨?_, h.2.trans k.2 h1 h2⟩
  simp only [exec, h.1, k.1, bind, Option.bind]
  rfl

theorem Runs0.skip {m : Machine V} (n : Nat) (σ : KEnv V) : Runs0 m .skip n n σ σ := ⟨rfl, Off.refl _ _ _⟩

theorem Runs0.initI {m : Machine V} {n : Nat} {σ : KEnv V} {e : KI} {v : Int} (hf : FreshFrom n σ) (he : evalKI m.ar σ e = some v) :
    Runs0 m (.initI (.tmp n) e) n (n + 1) σ (σ.set (.tmp n) (.I v)) := by
  refine ⟨?_, Off.set_tmp _ _⟩
  simp [exec, hf n (Nat.le_refl _), he]

theorem Runs0.initD {m : Machine V} {n : Nat} {σ : KEnv V} {dt : DType} {e : KD} {v : V} (hf : FreshFrom n σ) (he : evalKD m σ e = some v) :
    Runs0 m (.initD dt (.tmp n) e) n (n + 1) σ (σ.set (.tmp n) (.D v)) := by
  refine ⟨?_, Off.set_tmp _ _⟩
  simp [exec, hf n (Nat.le_refl _), he]

theorem genI_exec {m : Machine V} (hL : LimOK m.ar) {S : List LoopIndex} {ρ : LEnv} {e : IExpr} {n n' : Nat} {s : Stmt} {k : KI} {v : Int} {σ : KEnv V}
    (hw : IWF S e) (hg : genI e n = .ok (s, k, n')) (he : evalI ρ e = some v) (hb : Bound S ρ σ) (hf : FreshFrom n σ) :
    n ≤ n' ∧ ∃ σ', Runs0 m s n n' σ σ' ∧ evalKI m.ar σ' k = some v := by
  induction e generalizing n n' s k v σ with
  | index l =>
    cases hg
    exact ⟨Nat.le_refl _, σ, Runs0.skip _ _, by simp only [evalKI]; rw [hb l hw v he]⟩
  | const c =>
    cases hg; cases he
    exact ⟨Nat.le_refl _, σ, Runs0.skip _ _, rfl⟩
  | bin op l r ihl ihr =>
    obtain ⟨s1, k1, n1, e1, h1⟩ := genI_gen hw.2.1 n
    obtain ⟨s2, k2, n2, e2, h2⟩ := genI_gen hw.2.2 n1
    simp only [genI, idxOp_render hw.1, e1, e2, bind, Except.bind, pure, Except.pure] at hg
    simp only [Bool.true_eq_false, if_false, Except.ok.injEq, Prod.mk.injEq] at hg
    obtain ⟨rfl, rfl, rfl⟩ := hg
    simp only [evalI, Option.bind_eq_bind, Option.bind_eq_some_iff] at he
    obtain ⟨a, ha, b, hb', hv⟩ := he
    obtain ⟨_, σ1, r1, v1⟩ := ihl hw.2.1 e1 ha hb hf
    have l1 := r1.2.le hf
    have f1 := r1.2.fresh hf h1
    obtain ⟨_, σ2, r2, v2⟩ := ihr hw.2.2 e2 hb' (hb.le l1) f1
    have l2 := r2.2.le f1
    have f2 := r2.2.fresh f1 h2
    have hop : evalKI m.ar σ2 (.bin op k1 k2) = some v := by
      simp only [evalKI, evalKI_le l2 v1, v2, Option.bind_eq_bind, Option.bind_some]
      exact op_agree hL hv
    exact ⟨by omega, _, r1.seq (r2.seq (Runs0.initI f2 hop) h2 (by omega)) h1 (by omega), by simp [evalKI, set_same]⟩

/-- Pointwise evaluation of index texts. -/
def evalKIs (ar : IntArith) (σ : KEnv V) : List KI → Option (List Int)
  | [] => some []
  | k :: ks => do
    let v ← evalKI ar σ k
    let vs ← evalKIs ar σ ks
    pure (v :: vs)

theorem genIs_exec {m : Machine V} (hL : LimOK m.ar) {S : List LoopIndex} {ρ : LEnv} {es : List IExpr} {n n' : Nat} {s : Stmt} {ks : List KI} {vs : List Int} {σ : KEnv V}
    (hw : ∀ e ∈ es, IWF S e) (hg : genIs es n = .ok (s, ks, n')) (he : evalIs ρ es = some vs) (hb : Bound S ρ σ) (hf : FreshFrom n σ) :
    n ≤ n' ∧ ∃ σ', Runs0 m s n n' σ σ' ∧ evalKIs m.ar σ' ks = some vs := by
  induction es generalizing n n' s ks vs σ with
  | nil =>
    cases hg; cases he
    exact ⟨Nat.le_refl _, σ, Runs0.skip _ _, rfl⟩
  | cons e es ih =>
    obtain ⟨s1, k1, n1, e1, h1⟩ := genI_gen (hw e (by simp)) n
    obtain ⟨s2, k2, n2, e2, h2⟩ := genIs_gen (S := S) (es := es) (fun x hx => hw x (by simp [hx])) n1
    simp only [genIs, e1, e2, bind, Except.bind, pure, Except.pure, Except.ok.injEq, Prod.mk.injEq] at hg
    obtain ⟨rfl, rfl, rfl⟩ := hg
    simp only [evalIs, Option.bind_eq_bind, Option.bind_eq_some_iff, pure, Option.some.injEq] at he
    obtain ⟨a, ha, b, hb', rfl⟩ := he
    obtain ⟨_, σ1, r1, v1⟩ := genI_exec (m := m) hL (hw e (by simp)) e1 ha hb hf
    have l1 := r1.2.le hf
    have f1 := r1.2.fresh hf h1
    obtain ⟨_, σ2, r2, v2⟩ := ih (fun x hx => hw x (by simp [hx])) e2 hb' (hb.le l1) f1
    have l2 := r2.2.le f1
    exact ⟨by omega, σ2, r1.seq r2 h1 h2, by simp [evalKIs, evalKI_le l2 v1, v2]⟩

theorem evalKI_add {ar : IntArith} (hL : LimOK ar) {σ : KEnv V} {a b : KI} {x y : Int} (hf : Fit (x + y)) (ha : evalKI ar σ a = some x) (hb : evalKI ar σ b = some y) :
    evalKI ar σ (.bin .Add a b) = some (x + y) := by
  simp only [evalKI, ha, hb, Option.bind_eq_bind, Option.bind_some]; exact op_agree hL (iop_some rfl hf)

theorem evalKI_mul {ar : IntArith} (hL : LimOK ar) {σ : KEnv V} {a : KI} {x y : Int} (hf : Fit (x * y)) (ha : evalKI ar σ a = some x) :
    evalKI ar σ (.bin .Mul a (.lit y)) = some (x * y) := by
  simp only [evalKI, ha, Option.bind_eq_bind, Option.bind_some]; exact op_agree hL (iop_some rfl hf)

theorem sum_nonneg' {l : List Int} (h : NonNegs l) : 0 ≤ l.sum := by
  induction l with
  | nil => simp
  | cons x l ih => have := ih h.of_cons.2; have := h.of_cons.1; rw [List.sum_cons]; omega

theorem sumKI_eval {ar : IntArith} (hL : LimOK ar) {σ : KEnv V} {ts : List KI} {vs : List Int} {t : KI} {v : Int} (hv : 0 ≤ v) (hvs : NonNegs vs) (hf : Fit (v + vs.sum))
    (ht : evalKI ar σ t = some v)
    (h : evalKIs ar σ ts = some vs) : evalKI ar σ (sumKI t ts) = some (v + vs.sum) := by
  induction ts generalizing t v vs with
  | nil => cases h; simpa [sumKI] using ht
  | cons u us ih =>
    simp only [evalKIs, Option.bind_eq_bind, Option.bind_eq_some_iff, pure, Option.some.injEq] at h
    obtain ⟨a, ha, b, hb, rfl⟩ := h
    have h1 := hvs.of_cons
    have h2 := sum_nonneg' h1.2
    rw [List.sum_cons, ← Int.add_assoc] at hf
    have := ih (by omega) h1.2 hf (evalKI_add hL (hf.of_le (by omega) (by omega)) ht ha) hb
    simp only [sumKI, List.foldl_cons] at this ⊢
    rw [this, List.sum_cons, Int.add_assoc]

theorem evalKIs_length {ar : IntArith} {σ : KEnv V} {ks : List KI} {vs : List Int} (h : evalKIs ar σ ks = some vs) : vs.length = ks.length := by
  induction ks generalizing vs with
  | nil => cases h; rfl
  | cons k ks ih =>
    simp only [evalKIs, Option.bind_eq_bind, Option.bind_eq_some_iff, pure, Option.some.injEq] at h
    obtain ⟨a, ha, b, hb, rfl⟩ := h
    simp [ih hb]

theorem zipMul_eval {ar : IntArith} (hL : LimOK ar) {σ : KEnv V} {ks : List KI} {vs st : List Int} (hvs : NonNegs vs) (hst : NonNegs st) (hf : Fit (dot vs st))
    (h : evalKIs ar σ ks = some vs) (hl : ks.length = st.length) :
    ∃ ws, evalKIs ar σ (List.zipWith (fun a st => KI.bin .Mul a (.lit st)) ks st) = some ws ∧ ws.sum = dot vs st ∧ NonNegs ws := by
  induction ks generalizing vs st with
  | nil => cases h; exact ⟨[], rfl, rfl, fun x hx => by cases hx⟩
  | cons k ks ih =>
    cases st with
    | nil => simp at hl
    | cons x st =>
      simp only [evalKIs, Option.bind_eq_bind, Option.bind_eq_some_iff, pure, Option.some.injEq] at h
      obtain ⟨a, ha, b, hb, rfl⟩ := h
      have hp := Int.mul_nonneg hvs.of_cons.1 hst.of_cons.1
      have hd := dot_nonneg hvs.of_cons.2 hst.of_cons.2
      simp only [dot] at hf
      obtain ⟨ws, h1, h2, h3⟩ := ih hvs.of_cons.2 hst.of_cons.2 (hf.of_le hd (by omega)) hb (by simpa using hl)
      refine ⟨a * x :: ws, by simp [evalKIs, evalKI_mul hL (hf.of_le hp (by omega)) ha, h1], by simp [dot, h2], ?_⟩
      intro y hy
      rcases List.mem_cons.1 hy with rfl | hy
      · exact hp
      · exact h3 y hy

theorem ravel_nonneg' {s idx : List Int} (h : ValidIdx s idx) : 0 ≤ dot idx (stridesFromShape s) := dot_nonneg (valid_nonneg h) (strides_nonneg h)

theorem Fit.ravel {s idx : List Int} (h : Fit (room s)) (hv : ValidIdx s idx) : Fit (ravel s idx) := by
  have h0 := ravel_bounds hv
  have h2 := room_valid hv
  exact h.of_le h0.1 (by omega)

theorem flatIdx_eval {ar : IntArith} (hL : LimOK ar) {σ : KEnv V} {shape : List Int} {ks : List KI} {vs : List Int} (h : evalKIs ar σ ks = some vs)
    (hv : ValidIdx shape vs) (hf : Fit (room shape)) : evalKI ar σ (flatIdx shape ks) = some (ravel shape vs) := by
  have hl := hv.length
  have hk := evalKIs_length h
  have hfr := hf.ravel hv
  unfold flatIdx
  cases shape with
  | nil =>
    have := List.eq_nil_of_length_eq_zero (l := vs) (by simpa using hl)
    subst this; rfl
  | cons s ss =>
    have hsl : (stridesFromShape (s :: ss)).length = (s :: ss).length := by simp [stridesFromShape]
    obtain ⟨ws, h1, h2, h3⟩ := zipMul_eval hL (valid_nonneg hv) (strides_nonneg hv) (by rw [dot_strides hl]; exact hfr) h (st := stridesFromShape (s :: ss)) (by rw [hsl, ← hl, hk])
    rw [dot_strides hl] at h2
    simp only [List.isEmpty_cons, Bool.false_eq_true, if_false]
    cases hz : List.zipWith (fun a st => KI.bin .Mul a (.lit st)) ks (stridesFromShape (s :: ss)) with
    | nil =>
      have := congrArg List.length hz
      simp [List.length_zipWith, hsl, ← hk, hl] at this
    | cons t ts =>
      rw [hz] at h1
      simp only [evalKIs, Option.bind_eq_bind, Option.bind_eq_some_iff, pure, Option.some.injEq] at h1
      obtain ⟨a, ha, b, hb, rfl⟩ := h1
      rw [List.sum_cons] at h2
      rw [← h2] at hfr ⊢
      exact sumKI_eval hL h3.of_cons.1 h3.of_cons.2 hfr ha hb

theorem bufTerms_eval {ar : IntArith} (hL : LimOK ar) {σ : KEnv V} {ks : List KI} {vs st : List Int} (hvs : NonNegs vs) (hst : NonNegs st) (hf : Fit (dot vs st))
    (h : evalKIs ar σ ks = some vs) (hl : ks.length = st.length) :
    ∃ ws, evalKIs ar σ (((ks.zip st).filter (fun p => p.2 ≠ 0)).map (fun p => KI.bin .Mul p.1 (.lit p.2))) = some ws ∧ ws.sum = dot vs st ∧ NonNegs ws := by
  induction ks generalizing vs st with
  | nil => cases h; exact ⟨[], rfl, rfl, fun x hx => by cases hx⟩
  | cons k ks ih =>
    cases st with
    | nil => simp at hl
    | cons x st =>
      simp only [evalKIs, Option.bind_eq_bind, Option.bind_eq_some_iff, pure, Option.some.injEq] at h
      obtain ⟨a, ha, b, hb, rfl⟩ := h
      have hp := Int.mul_nonneg hvs.of_cons.1 hst.of_cons.1
      have hd := dot_nonneg hvs.of_cons.2 hst.of_cons.2
      simp only [dot] at hf
      obtain ⟨ws, h1, h2, h3⟩ := ih hvs.of_cons.2 hst.of_cons.2 (hf.of_le hd (by omega)) hb (by simpa using hl)
      rw [List.zip_cons_cons, List.filter_cons]
      by_cases hx : x = 0
      · subst hx
        exact ⟨ws, by simpa using h1, by simp [dot, h2], h3⟩
      · refine ⟨a * x :: ws, ?_, by simp [dot, h2], ?_⟩
        · simp only [ne_eq, hx, not_false_eq_true, decide_true, if_true, List.map_cons, evalKIs, evalKI_mul hL (hf.of_le hp (by omega)) ha, Option.bind_eq_bind, Option.bind_some]
          simp only [ne_eq] at h1
          rw [h1]; rfl
        · intro y hy
          rcases List.mem_cons.1 hy with rfl | hy
          · exact hp
          · exact h3 y hy

theorem bufIdx_eval {ar : IntArith} (hL : LimOK ar) {σ : KEnv V} {off : Int} {st : List Int} {ks : List KI} {vs : List Int} (hvs : NonNegs vs) (hst : NonNegs st) (ho : 0 ≤ off)
    (hf : Fit (off + dot vs st)) (h : evalKIs ar σ ks = some vs)
    (hl : vs.length = st.length) : evalKI ar σ (bufIdx off st ks) = some (off + dot vs st) := by
  have hd := dot_nonneg hvs hst
  obtain ⟨ws, h1, h2, h3⟩ := bufTerms_eval hL hvs hst (hf.of_le hd (by omega)) h (st := st) (by rw [← hl, evalKIs_length h])
  unfold bufIdx
  rw [← h2] at hf ⊢
  exact sumKI_eval hL ho h3 hf rfl h1

end Whale
