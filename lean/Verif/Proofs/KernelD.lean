import Verif.Proofs.KernelSem
/-
Executing generated value code and reductions.
-/
namespace Whale
open Algo Codegen Kern
variable {V : Type} [Lim]

/-- Every array the expression refers to is among the kernel arguments. -/
structure KArgsOK (g : Graph V) (tbl : Tbl) (args : Args) (e : DExpr) : Prop where
  fnc : ∀ f ∈ funcRefs e, f ∈ args.fncs ∧ ∃ F, tbl f = some F ∧ F.outShape = g.shape f
  buf : ∀ b ∈ bufRefs e, b ∈ args.bufs

/-- The input arrays of the machine hold the elements `rd`, at positions within the limit. -/
structure MemOK (g : Graph V) (args : Args) (m : Machine V) (rd : Nat → List Int → Option V) : Prop where
  lim : LimOK m.ar
  fnc : ∀ f ∈ args.fncs, ∀ idx v, rd f idx = some v → ∃ l, m.mem (.arg true (args.bufs.length + args.fncs.idxOf f)) = some l ∧
    fetch l (ravel (g.shape f) idx) = some v ∧ ValidIdx (g.shape f) idx ∧ Fit (room (g.shape f))
  buf : ∀ b ∈ args.bufs, ∀ idx v, rd b idx = some v → ∃ l, m.mem (.arg false (args.bufs.idxOf b)) = some l ∧
    fetch l (g.offset b + dot idx (g.strides b)) = some v ∧ NonNegs idx ∧ NonNegs (g.strides b) ∧ 0 ≤ g.offset b ∧ Fit (g.offset b + dot idx (g.strides b))

theorem isUnary_render {op : Ops} (h : op.isUnary = true) : renderUn op = true := by cases op <;> revert h <;> decide
theorem isBinary_render {op : Ops} (h : op.isBinary = true) : renderBin op = true := by cases op <;> revert h <;> decide

theorem genD_gen {g : Graph V} {tbl : Tbl} {args : Args} {dt : DType} {S : List LoopIndex} {lvl : Nat} {e : DExpr}
    (hw : DWF g S lvl e) (ha : KArgsOK g tbl args e) (n : Nat) :
    ∃ s k n', genD g tbl args dt e n = .ok (s, k, n') ∧ n ≤ n' := by
  induction e generalizing n with
  | const c => exact ⟨_, _, n, rfl, Nat.le_refl _⟩
  | un op e ih =>
    obtain ⟨s1, k1, n1, e1, h1⟩ := ih hw.2 ⟨ha.fnc, ha.buf⟩ n
    refine ⟨.seq s1 (.initD dt (.tmp n1) (.un op k1)), .var (.tmp n1), n1 + 1, ?_, by omega⟩
    simp only [genD, isUnary_render hw.1, e1, bind, Except.bind, pure, Except.pure]; simp
  | bin op l r ihl ihr =>
    obtain ⟨s1, k1, n1, e1, h1⟩ := ihl hw.2.1 ⟨fun f hf => ha.fnc f (by simp [funcRefs, hf]), fun f hf => ha.buf f (by simp [bufRefs, hf])⟩ n
    obtain ⟨s2, k2, n2, e2, h2⟩ := ihr hw.2.2 ⟨fun f hf => ha.fnc f (by simp [funcRefs, hf]), fun f hf => ha.buf f (by simp [bufRefs, hf])⟩ n1
    refine ⟨.seq s1 (.seq s2 (.initD dt (.tmp n2) (.bin op k1 k2))), .var (.tmp n2), n2 + 1, ?_, by omega⟩
    simp only [genD, isBinary_render hw.1, e1, e2, bind, Except.bind, pure, Except.pure]; simp
  | tern op c t f iht ihf =>
    obtain ⟨hop, hc, ht, hf⟩ := hw
    obtain ⟨s1, k1, n1, e1, h1⟩ := genI_gen hc (n + 1)
    obtain ⟨s2, k2, n2, e2, h2⟩ := iht ht ⟨fun f hf => ha.fnc f (by simp [funcRefs, hf]), fun f hf => ha.buf f (by simp [bufRefs, hf])⟩ n1
    obtain ⟨s3, k3, n3, e3, h3⟩ := ihf hf ⟨fun f hf => ha.fnc f (by simp [funcRefs, hf]), fun f hf => ha.buf f (by simp [bufRefs, hf])⟩ n2
    refine ⟨.seq (.initD dt (.tmp n) (.zero dt.isInt)) (.seq s1 (.ite k1 (.seq s2 (.set (.tmp n) k2)) (.seq s3 (.set (.tmp n) k3)))), .var (.tmp n), n3, ?_, by omega⟩
    simp only [genD, hop, e1, e2, e3, bind, Except.bind, pure, Except.pure, ne_eq, not_true, if_false]
  | red op e rs ih => exact absurd hw id
  | func f idx =>
    obtain ⟨s1, k1, n1, e1, h1⟩ := genIs_gen hw.2.2 n
    obtain ⟨hf, F, hF, _⟩ := ha.fnc f (by simp [funcRefs])
    refine ⟨s1, .read (.arg true (args.bufs.length + args.fncs.idxOf f)) (flatIdx F.outShape k1), n1, ?_, h1⟩
    simp only [genD, fncName, hf, if_true, e1, hF, bind, Except.bind, pure, Except.pure]
  | buf b idx =>
    obtain ⟨s1, k1, n1, e1, h1⟩ := genIs_gen hw.2.2.2.2 n
    have hb := ha.buf b (by simp [bufRefs])
    refine ⟨s1, .read (.arg false (args.bufs.idxOf b)) (bufIdx (g.offset b) (g.strides b) k1), n1, ?_, h1⟩
    simp only [genD, bufName, hb, if_true, e1, bind, Except.bind, pure, Except.pure]

theorem leave_off_set {n n' : Nat} {a b : KEnv V} (h : Off n n' a b) (hf : FreshFrom n a) {x : VName} (hx : (a x).isSome = true) (w : Val V) :
    KEnv.leave a (b.set x w) = a.set x w := by
  have h0 := leave_off h hf
  funext y
  have := congrFun h0 y
  unfold KEnv.leave KEnv.set at *
  by_cases hy : y = x
  · subst hy; simp [hx]
  · simp only [hy, if_false] at this ⊢; exact this

theorem genD_exec {g : Graph V} {tbl : Tbl} {args : Args} {dt : DType} {m : Machine V} {rd : Nat → List Int → Option V}
    {S : List LoopIndex} {lvl : Nat} {ρ : LEnv} {e : DExpr} {n n' : Nat} {s : Stmt} {k : KD} {v : V} {σ : KEnv V}
    (hstr : ∀ b, g.ctx b = .const → b < g.length → (g.strides b).length = g.ndim b)
    (hw : DWF g S lvl e) (ha : KArgsOK g tbl args e) (hm : MemOK g args m rd)
    (hg : genD g tbl args dt e n = .ok (s, k, n')) (he : evalD m.A rd ρ e = some v) (hb : Bound S ρ σ) (hf : FreshFrom n σ) :
    n ≤ n' ∧ ∃ σ', Runs0 m s n n' σ σ' ∧ evalKD m σ' k = some v := by
  induction e generalizing n n' s k v σ with
  | const c =>
    cases hg; cases he
    exact ⟨Nat.le_refl _, σ, Runs0.skip _ _, rfl⟩
  | un op e ih =>
    obtain ⟨s1, k1, n1, e1, h1⟩ := genD_gen (dt := dt) hw.2 ⟨ha.fnc, ha.buf⟩ n
    simp only [genD, isUnary_render hw.1, e1, bind, Except.bind, pure, Except.pure, Bool.true_eq_false, if_false, Except.ok.injEq, Prod.mk.injEq] at hg
    obtain ⟨rfl, rfl, rfl⟩ := hg
    simp only [evalD, Option.bind_eq_bind, Option.bind_eq_some_iff, pure, Option.some.injEq] at he
    obtain ⟨a, ha', rfl⟩ := he
    obtain ⟨_, σ1, r1, v1⟩ := ih hw.2 ⟨ha.fnc, ha.buf⟩ e1 ha' hb hf
    have f1 := r1.2.fresh hf h1
    have hop : evalKD m σ1 (.un op k1) = some (m.A.un op a) := by simp [evalKD, v1]
    exact ⟨by omega, _, r1.seq (Runs0.initD f1 hop) h1 (by omega), by simp [evalKD, set_same]⟩
  | bin op l r ihl ihr =>
    have al : KArgsOK g tbl args l := ⟨fun f hf => ha.fnc f (by simp [funcRefs, hf]), fun f hf => ha.buf f (by simp [bufRefs, hf])⟩
    have ar : KArgsOK g tbl args r := ⟨fun f hf => ha.fnc f (by simp [funcRefs, hf]), fun f hf => ha.buf f (by simp [bufRefs, hf])⟩
    obtain ⟨s1, k1, n1, e1, h1⟩ := genD_gen (dt := dt) hw.2.1 al n
    obtain ⟨s2, k2, n2, e2, h2⟩ := genD_gen (dt := dt) hw.2.2 ar n1
    simp only [genD, isBinary_render hw.1, e1, e2, bind, Except.bind, pure, Except.pure, Bool.true_eq_false, if_false, Except.ok.injEq, Prod.mk.injEq] at hg
    obtain ⟨rfl, rfl, rfl⟩ := hg
    simp only [evalD, Option.bind_eq_bind, Option.bind_eq_some_iff, pure, Option.some.injEq] at he
    obtain ⟨a, ha', b, hb', rfl⟩ := he
    obtain ⟨_, σ1, r1, v1⟩ := ihl hw.2.1 al e1 ha' hb hf
    have l1 := r1.2.le hf
    have f1 := r1.2.fresh hf h1
    obtain ⟨_, σ2, r2, v2⟩ := ihr hw.2.2 ar e2 hb' (hb.le l1) f1
    have l2 := r2.2.le f1
    have f2 := r2.2.fresh f1 h2
    have hop : evalKD m σ2 (.bin op k1 k2) = some (m.A.bin op a b) := by simp [evalKD, evalKD_le l2 v1, v2]
    exact ⟨by omega, _, r1.seq (r2.seq (Runs0.initD f2 hop) h2 (by omega)) h1 (by omega), by simp [evalKD, set_same]⟩
  | tern op c t f iht ihf =>
    obtain ⟨hop, hc, ht, hf'⟩ := hw
    have at' : KArgsOK g tbl args t := ⟨fun f hf => ha.fnc f (by simp [funcRefs, hf]), fun f hf => ha.buf f (by simp [bufRefs, hf])⟩
    have af : KArgsOK g tbl args f := ⟨fun f hf => ha.fnc f (by simp [funcRefs, hf]), fun f hf => ha.buf f (by simp [bufRefs, hf])⟩
    obtain ⟨s1, k1, n1, e1, h1⟩ := genI_gen hc (n + 1)
    obtain ⟨s2, k2, n2, e2, h2⟩ := genD_gen (dt := dt) ht at' n1
    obtain ⟨s3, k3, n3, e3, h3⟩ := genD_gen (dt := dt) hf' af n2
    simp only [genD, hop, e1, e2, e3, bind, Except.bind, pure, Except.pure, ne_eq, not_true, if_false, Except.ok.injEq, Prod.mk.injEq] at hg
    obtain ⟨rfl, rfl, rfl⟩ := hg
    simp only [evalD, Option.bind_eq_bind, Option.bind_eq_some_iff] at he
    obtain ⟨b, hb', he⟩ := he
    have r0 : Runs0 m (.initD dt (.tmp n) (.zero dt.isInt)) n (n + 1) σ (σ.set (.tmp n) (.D (if dt.isInt then m.A.ofInt 0 else m.A.fzero))) := Runs0.initD hf rfl
    have l0 := r0.2.le hf
    have f0 := r0.2.fresh hf (by omega)
    obtain ⟨_, σ1, r1, v1⟩ := genI_exec (m := m) hm.lim hc e1 hb' (hb.le l0) f0
    have l1 := r1.2.le f0
    have f1 := r1.2.fresh f0 h1
    have hres : σ1 (.tmp n) = some (.D (if dt.isInt then m.A.ofInt 0 else m.A.fzero)) := l1 _ _ (set_same _ _ _)
    have hb1 := (hb.le l0).le l1
    have key : exec m (.ite k1 (.seq s2 (.set (.tmp n) k2)) (.seq s3 (.set (.tmp n) k3))) σ1 = some ⟨σ1.set (.tmp n) (.D v), [], false⟩ := by
      by_cases hbz : b ≠ 0
      · rw [if_pos hbz] at he
        obtain ⟨_, σ2, r2, v2⟩ := iht ht at' e2 he hb1 f1
        have : exec m (.seq s2 (.set (.tmp n) k2)) σ1 = some ⟨σ2.set (.tmp n) (.D v), [], false⟩ := by
          simp only [exec, r2.1, Option.bind_eq_bind, Option.bind_some, r2.2.le f1 _ _ hres, v2]; rfl
        simp only [exec, v1, Option.bind_eq_bind, Option.bind_some] at this ⊢
        rw [if_pos hbz]
        rw [this]
        simp only [Option.bind_some, pure]
        rw [leave_off_set r2.2 f1 (by rw [hres]; rfl)]
      · rw [if_neg hbz] at he
        have f1' : FreshFrom n2 σ1 := fun k hk => f1 k (by omega)
        obtain ⟨_, σ2, r2, v2⟩ := ihf hf' af e3 he hb1 f1'
        have : exec m (.seq s3 (.set (.tmp n) k3)) σ1 = some ⟨σ2.set (.tmp n) (.D v), [], false⟩ := by
          simp only [exec, r2.1, Option.bind_eq_bind, Option.bind_some, r2.2.le f1' _ _ hres, v2]; rfl
        simp only [exec, v1, Option.bind_eq_bind, Option.bind_some] at this ⊢
        rw [if_neg hbz]
        rw [this]
        simp only [Option.bind_some, pure]
        rw [leave_off_set r2.2 f1' (by rw [hres]; rfl)]
    refine ⟨by omega, σ1.set (.tmp n) (.D v), ⟨?_, ?_⟩, by simp [evalKD, set_same]⟩
    · have e0 := r0.1
      have e1' := r1.1
      rw [exec, e0]
      simp only [Option.bind_eq_bind, Option.bind_some]
      rw [if_neg (by simp), exec, e1']
      simp only [Option.bind_eq_bind, Option.bind_some]
      rw [if_neg (by simp), key]
      rfl
    · intro y hy
      have hyn : y ≠ .tmp n := fun e => hy ⟨n, e, Nat.le_refl _, by omega⟩
      rw [set_ne _ _ hyn]
      have := (r0.2.trans r1.2 (by omega) h1) y (fun ⟨j, e, l, u⟩ => hy ⟨j, e, l, by omega⟩)
      exact this
  | red op e rs ih => exact absurd hw id
  | func f idx =>
    obtain ⟨s1, k1, n1, e1, h1⟩ := genIs_gen hw.2.2 n
    obtain ⟨hf', F, hF, hsh⟩ := ha.fnc f (by simp [funcRefs])
    simp only [genD, fncName, hf', if_true, e1, hF, bind, Except.bind, pure, Except.pure, Except.ok.injEq, Prod.mk.injEq] at hg
    obtain ⟨rfl, rfl, rfl⟩ := hg
    simp only [evalD, Option.bind_eq_bind, Option.bind_eq_some_iff] at he
    obtain ⟨vs, hvs, hrd⟩ := he
    obtain ⟨_, σ1, r1, v1⟩ := genIs_exec (m := m) hm.lim hw.2.2 e1 hvs hb hf
    obtain ⟨l, hl1, hl2, hl3, hl4⟩ := hm.fnc f hf' vs v hrd
    refine ⟨h1, σ1, r1, ?_⟩
    have := flatIdx_eval hm.lim (shape := F.outShape) v1 (by rw [hsh]; exact hl3) (by rw [hsh]; exact hl4)
    simp only [evalKD, hl1, Option.bind_eq_bind, Option.bind_some, this]
    rw [hsh]; exact hl2
  | buf b idx =>
    obtain ⟨s1, k1, n1, e1, h1⟩ := genIs_gen hw.2.2.2.2 n
    have hb' := ha.buf b (by simp [bufRefs])
    simp only [genD, bufName, hb', if_true, e1, bind, Except.bind, pure, Except.pure, Except.ok.injEq, Prod.mk.injEq] at hg
    obtain ⟨rfl, rfl, rfl⟩ := hg
    simp only [evalD, Option.bind_eq_bind, Option.bind_eq_some_iff] at he
    obtain ⟨vs, hvs, hrd⟩ := he
    obtain ⟨_, σ1, r1, v1⟩ := genIs_exec (m := m) hm.lim hw.2.2.2.2 e1 hvs hb hf
    obtain ⟨l, hl1, hl2, hl3, hl4, hl5, hl6⟩ := hm.buf b hb' vs v hrd
    refine ⟨h1, σ1, r1, ?_⟩
    have := bufIdx_eval hm.lim (off := g.offset b) (st := g.strides b) hl3 hl4 hl5 hl6 v1 (by rw [evalIs_length hvs, hw.2.2.2.1, hstr b hw.2.2.1 hw.1])
    simp only [evalKD, hl1, Option.bind_eq_bind, Option.bind_some, this]
    exact hl2

end Whale
