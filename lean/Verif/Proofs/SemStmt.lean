import Verif.Proofs.SemExpr
/-
C48: running the text of statements.
-/
namespace Whale.Sem
open Whale Syntax Kern
variable {V : Type}

/-- The statements that occur in generated kernels. -/
def Stmt.tidy (S : Setup V) : Stmt → Prop
  | .skip => True
  | .seq s t => Stmt.tidy S s ∧ Stmt.tidy S t
  | .initI _ e => KI.lits S.B e
  | .initD dt _ e => dt = S.dt ∧ KD.form S.B S.ops e ∧ ∀ x ∈ e.reads, x ≠ .out
  | .set _ e => KD.form S.B S.ops e ∧ ∀ x ∈ e.reads, x ≠ .out
  | .store i e => KI.lits S.B i ∧ KD.form S.B S.ops e ∧ ∀ x ∈ e.reads, x ≠ .out
  | .loop _ _ n b => S.B n ∧ Stmt.tidy S b
  | .ite c t f => KI.lits S.B c ∧ Stmt.tidy S t ∧ Stmt.tidy S f
  | .guardRet c => KI.lits S.B c
  | .gpuIdx .. => True

/-- Variables in scope stay in scope. -/
theorem scope_mono : ∀ {s : Stmt} {Γ Γ' : Scope}, s.scope Γ = some Γ' → ∀ y k, Γ y = some k → Γ' y = some k := by
  have dec : ∀ {Γ Γ' : Scope} {x : VName} {k : Kind}, Γ.declare x k = some Γ' → ∀ y k', Γ y = some k' → Γ' y = some k' := by
    intro Γ Γ' x k h y k' hy
    unfold Scope.declare at h
    split at h
    · rename_i hx
      cases h
      unfold Scope.add
      rw [if_neg (by rintro rfl; rw [hx] at hy; cases hy)]
      exact hy
    · cases h
  intro s
  induction s with
  | skip => intro Γ Γ' h y k hy; cases h; exact hy
  | seq s t ihs iht =>
    intro Γ Γ' h y k hy
    obtain ⟨Γ1, h1, h2⟩ := Option.bind_eq_some_iff.1 h
    exact iht h2 y k (ihs h1 y k hy)
  | initI x e => intro Γ Γ' h; unfold Stmt.scope at h; split at h <;> [exact dec h; cases h]
  | initD d x e => intro Γ Γ' h; unfold Stmt.scope at h; split at h <;> [exact dec h; cases h]
  | set x e => intro Γ Γ' h y k hy; unfold Stmt.scope at h; split at h <;> cases h; exact hy
  | store x e => intro Γ Γ' h y k hy; unfold Stmt.scope at h; split at h <;> cases h; exact hy
  | loop m x n b ih =>
    intro Γ Γ' h y k hy
    obtain ⟨Γ1, h1, h2⟩ := Option.bind_eq_some_iff.1 h
    split at h2 <;> cases h2
    exact hy
  | ite c t f _ _ => intro Γ Γ' h y k hy; unfold Stmt.scope at h; split at h <;> cases h; exact hy
  | guardRet c => intro Γ Γ' h y k hy; unfold Stmt.scope at h; split at h <;> cases h; exact hy
  | gpuIdx x t d => intro Γ Γ' h; exact dec h

theorem declare_eq {Γ Γ' : Scope} {x : VName} {k : Kind} (h : Γ.declare x k = some Γ') : Γ x = none ∧ Γ' = Γ.add x k := by
  unfold Scope.declare at h
  split at h
  · rename_i hx; cases h; exact ⟨hx, rfl⟩
  · cases h

theorem leave_keep {σ τ : KEnv V} {x : VName} {v : Val V} (h : σ x = some v) : KEnv.leave σ τ x = τ x := by simp [KEnv.leave, h]

/-- Execution does not change index variables. -/
theorem exec_idx {m : Machine V} : ∀ {s : Stmt} {σ : KEnv V} {st : St V}, exec m s σ = some st → ∀ x i, σ x = some (.I i) → st.env x = some (.I i) := by
  have set_keep : ∀ {σ : KEnv V} {x y : VName} {i : Int} {v : Val V}, σ x = some (.I i) → (¬ (σ y).isSome ∨ ∃ u, σ y = some (.D u)) → σ.set y v x = some (.I i) := by
    intro σ x y i v hx hy
    have : x ≠ y := by
      rintro rfl
      rcases hy with hy | ⟨u, hy⟩ <;> rw [hx] at hy
      · exact hy rfl
      · cases hy
    simp [KEnv.set, this, hx]
  intro s
  induction s with
  | skip => intro σ st h x i hx; cases h; exact hx
  | seq s t ihs iht =>
    intro σ st h x i hx
    simp only [exec, Option.bind_eq_bind, Option.bind_eq_some_iff] at h
    obtain ⟨r1, h1, h⟩ := h
    split at h
    · cases h; exact ihs h1 x i hx
    · obtain ⟨r2, h2, h⟩ := Option.bind_eq_some_iff.1 h
      cases h
      exact iht h2 x i (ihs h1 x i hx)
  | initI y e =>
    intro σ st h x i hx
    simp only [exec] at h
    split at h
    · cases h
    · rename_i hy
      simp only [Option.bind_eq_bind, Option.bind_eq_some_iff] at h
      obtain ⟨v, _, h⟩ := h
      cases h
      exact set_keep hx (.inl hy)
  | initD d y e =>
    intro σ st h x i hx
    simp only [exec] at h
    split at h
    · cases h
    · rename_i hy
      simp only [Option.bind_eq_bind, Option.bind_eq_some_iff] at h
      obtain ⟨v, _, h⟩ := h
      cases h
      exact set_keep hx (.inl hy)
  | set y e =>
    intro σ st h x i hx
    simp only [exec] at h
    split at h
    · rename_i u hy
      simp only [Option.bind_eq_bind, Option.bind_eq_some_iff] at h
      obtain ⟨v, _, h⟩ := h
      cases h
      exact set_keep hx (.inr ⟨_, hy⟩)
    · cases h
  | store k e =>
    intro σ st h x i hx
    simp only [exec, Option.bind_eq_bind, Option.bind_eq_some_iff] at h
    obtain ⟨_, _, _, _, h⟩ := h
    split at h <;> cases h
    exact hx
  | loop md y n b ih =>
    intro σ st h x i hx
    simp only [exec] at h
    split at h
    · cases h
    · rename_i hy
      simp only [Option.bind_eq_bind] at h
      have hxy : x ≠ y := by rintro rfl; rw [hx] at hy; exact hy rfl
      have key : ∀ (l : List Int) (s0 s1 : St V), s0.env x = some (.I i) → l.foldlM (fun (st : St V) i =>
          if st.ret then pure st else (exec m b (st.env.set y (.I i))).bind fun r => pure ⟨KEnv.leave st.env r.env, st.writes ++ r.writes, r.ret⟩) s0 = some s1 →
          s1.env x = some (.I i) := by
        intro l
        induction l with
        | nil => intro s0 s1 h0 h; cases h; exact h0
        | cons a l ihl =>
          intro s0 s1 h0 h
          rw [List.foldlM_cons] at h
          obtain ⟨s2, h2, h⟩ := Option.bind_eq_some_iff.1 h
          refine ihl s2 s1 ?_ h
          split at h2
          · cases h2; exact h0
          · obtain ⟨r, hr, h2⟩ := Option.bind_eq_some_iff.1 h2
            cases h2
            simp only
            rw [leave_keep h0]
            exact ih hr x i (by simp [KEnv.set, hxy, h0])
      exact key _ _ _ hx h
  | ite c t f iht ihf =>
    intro σ st h x i hx
    simp only [exec, Option.bind_eq_bind, Option.bind_eq_some_iff] at h
    obtain ⟨b, _, h⟩ := h
    split at h
    · obtain ⟨r, hr, h⟩ := Option.bind_eq_some_iff.1 h
      cases h
      simp only
      rw [leave_keep hx]
      exact iht hr x i hx
    · obtain ⟨r, hr, h⟩ := Option.bind_eq_some_iff.1 h
      cases h
      simp only
      rw [leave_keep hx]
      exact ihf hr x i hx
  | guardRet c =>
    intro σ st h x i hx
    simp only [exec, Option.bind_eq_bind, Option.bind_eq_some_iff] at h
    obtain ⟨b, _, h⟩ := h
    cases h
    exact hx
  | gpuIdx y t d =>
    intro σ st h x i hx
    simp only [exec] at h
    split at h
    · cases h
    · rename_i hy
      simp only [Option.bind_eq_bind, Option.bind_eq_some_iff] at h
      obtain ⟨v, _, h⟩ := h
      cases h
      exact set_keep hx (.inl hy)

theorem applyWrites_append (out : List V) (a b : List (Int × V)) : applyWrites out (a ++ b) = applyWrites (applyWrites out a) b := List.foldl_append

/-- After `return`, the output buffer. -/
def RetRel (S : Setup V) (ρ : Env V) (out : List V) : Prop := ρ VName.out.chars = some (.arr S.ty out)

theorem Env.set_same (ρ : Env V) (x : Str) (o : Obj V) : ρ.set x o x = some o := by simp [Env.set]
theorem Env.set_ne (ρ : Env V) {x y : Str} (o : Obj V) (h : y ≠ x) : ρ.set x o y = ρ y := by simp [Env.set, h]
theorem chars_ne {x y : VName} (h : x ≠ y) : x.chars ≠ y.chars := fun e => h (chars_inj e)

section
variable {S : Setup V} {Γ : Scope} {σ : KEnv V} {ρ : Env V} {out : List V}

theorem Rel.declareI (hr : Rel S Γ σ ρ out) {x : VName} (hx : Γ x = none) {i : Int} {t : Option Str} {v : V} (hv : S.c.N.asInt v = some i) (hB : S.B i) :
    Rel S (Γ.add x .idx) (σ.set x (.I i)) (ρ.set x.chars (.num t v)) out := by
  have hxo : VName.out ≠ x := by rintro rfl; rw [hr.out.1] at hx; cases hx
  refine ⟨?_, ?_, ?_, ?_, ?_, ?_⟩
  · intro y hy
    by_cases e : y = x.chars
    · exact ⟨x, e⟩
    · rw [Env.set_ne _ _ e] at hy; exact hr.names y hy
  · intro hL y hy
    unfold Scope.add at hy
    split at hy
    · cases hy
    · rename_i hne; rw [Env.set_ne _ _ (chars_ne hne)]; exact hr.fresh hL y hy
  · intro y hy
    unfold Scope.add at hy
    by_cases e : y = x
    · subst e; exact ⟨i, t, v, by simp [KEnv.set], Env.set_same _ _ _, hv, hB⟩
    · rw [if_neg e] at hy
      obtain ⟨i', t', v', h1, h2⟩ := hr.idx y hy
      exact ⟨i', t', v', by simp [KEnv.set, e, h1], by rw [Env.set_ne _ _ (chars_ne e)]; exact h2.1, h2.2⟩
  · intro y hy
    unfold Scope.add at hy
    by_cases e : y = x
    · rw [if_pos e] at hy; cases hy
    · rw [if_neg e] at hy
      obtain ⟨v', h1, h2⟩ := hr.elem y hy
      exact ⟨v', by simp [KEnv.set, e, h1], by rw [Env.set_ne _ _ (chars_ne e)]; exact h2.1, h2.2⟩
  · intro y hy hyo
    unfold Scope.add at hy
    by_cases e : y = x
    · rw [if_pos e] at hy; cases hy
    · rw [if_neg e] at hy
      obtain ⟨t', l, h1, h2⟩ := hr.arr y hy hyo
      exact ⟨t', l, by rw [Env.set_ne _ _ (chars_ne e)]; exact h1, h2⟩
  · exact ⟨by unfold Scope.add; rw [if_neg hxo]; exact hr.out.1, by rw [Env.set_ne _ _ (chars_ne hxo)]; exact hr.out.2.1, hr.out.2.2⟩

theorem Rel.declareD (hr : Rel S Γ σ ρ out) {x : VName} (hx : Γ x = none) {v : V} (hv : S.T v) :
    Rel S (Γ.add x .elem) (σ.set x (.D v)) (ρ.set x.chars (.num S.ty v)) out := by
  have hxo : VName.out ≠ x := by rintro rfl; rw [hr.out.1] at hx; cases hx
  refine ⟨?_, ?_, ?_, ?_, ?_, ?_⟩
  · intro y hy
    by_cases e : y = x.chars
    · exact ⟨x, e⟩
    · rw [Env.set_ne _ _ e] at hy; exact hr.names y hy
  · intro hL y hy
    unfold Scope.add at hy
    split at hy
    · cases hy
    · rename_i hne; rw [Env.set_ne _ _ (chars_ne hne)]; exact hr.fresh hL y hy
  · intro y hy
    unfold Scope.add at hy
    by_cases e : y = x
    · rw [if_pos e] at hy; cases hy
    · rw [if_neg e] at hy
      obtain ⟨i', t', v', h1, h2⟩ := hr.idx y hy
      exact ⟨i', t', v', by simp [KEnv.set, e, h1], by rw [Env.set_ne _ _ (chars_ne e)]; exact h2.1, h2.2⟩
  · intro y hy
    unfold Scope.add at hy
    by_cases e : y = x
    · subst e; exact ⟨v, by simp [KEnv.set], Env.set_same _ _ _, hv⟩
    · rw [if_neg e] at hy
      obtain ⟨v', h1, h2⟩ := hr.elem y hy
      exact ⟨v', by simp [KEnv.set, e, h1], by rw [Env.set_ne _ _ (chars_ne e)]; exact h2.1, h2.2⟩
  · intro y hy hyo
    unfold Scope.add at hy
    by_cases e : y = x
    · rw [if_pos e] at hy; cases hy
    · rw [if_neg e] at hy
      obtain ⟨t', l, h1, h2⟩ := hr.arr y hy hyo
      exact ⟨t', l, by rw [Env.set_ne _ _ (chars_ne e)]; exact h1, h2⟩
  · exact ⟨by unfold Scope.add; rw [if_neg hxo]; exact hr.out.1, by rw [Env.set_ne _ _ (chars_ne hxo)]; exact hr.out.2.1, hr.out.2.2⟩

theorem Rel.setD (hr : Rel S Γ σ ρ out) {x : VName} (hx : Γ x = some .elem) {v : V} (hv : S.T v) :
    Rel S Γ (σ.set x (.D v)) (ρ.set x.chars (.num S.ty v)) out := by
  have hxo : VName.out ≠ x := by rintro rfl; rw [hr.out.1] at hx; cases hx
  refine ⟨?_, ?_, ?_, ?_, ?_, ?_⟩
  · intro y hy
    by_cases e : y = x.chars
    · exact ⟨x, e⟩
    · rw [Env.set_ne _ _ e] at hy; exact hr.names y hy
  · intro hL y hy
    have e : y ≠ x := by rintro rfl; rw [hx] at hy; cases hy
    rw [Env.set_ne _ _ (chars_ne e)]; exact hr.fresh hL y hy
  · intro y hy
    have e : y ≠ x := by rintro rfl; rw [hx] at hy; cases hy
    obtain ⟨i', t', v', h1, h2⟩ := hr.idx y hy
    exact ⟨i', t', v', by simp [KEnv.set, e, h1], by rw [Env.set_ne _ _ (chars_ne e)]; exact h2.1, h2.2⟩
  · intro y hy
    by_cases e : y = x
    · subst e; exact ⟨v, by simp [KEnv.set], Env.set_same _ _ _, hv⟩
    · obtain ⟨v', h1, h2⟩ := hr.elem y hy
      exact ⟨v', by simp [KEnv.set, e, h1], by rw [Env.set_ne _ _ (chars_ne e)]; exact h2.1, h2.2⟩
  · intro y hy hyo
    have e : y ≠ x := by rintro rfl; rw [hx] at hy; cases hy
    obtain ⟨t', l, h1, h2⟩ := hr.arr y hy hyo
    exact ⟨t', l, by rw [Env.set_ne _ _ (chars_ne e)]; exact h1, h2⟩
  · exact ⟨hr.out.1, by rw [Env.set_ne _ _ (chars_ne hxo)]; exact hr.out.2.1, hr.out.2.2⟩

theorem Rel.setOut (hr : Rel S Γ σ ρ out) {l : List V} (hl : l.length = out.length) : Rel S Γ σ (ρ.set VName.out.chars (.arr S.ty l)) l := by
  have hne : ∀ y k, Γ y = some k → k ≠ .arr ∨ y ≠ .out → y ≠ .out := by
    intro y k hy h
    rintro rfl
    rw [hr.out.1] at hy
    cases hy
    rcases h with h | h <;> exact h rfl
  refine ⟨?_, ?_, ?_, ?_, ?_, ?_⟩
  · intro y hy
    by_cases e : y = VName.out.chars
    · exact ⟨_, e⟩
    · rw [Env.set_ne _ _ e] at hy; exact hr.names y hy
  · intro hL y hy
    have e : y ≠ .out := by rintro rfl; rw [hr.out.1] at hy; cases hy
    rw [Env.set_ne _ _ (chars_ne e)]; exact hr.fresh hL y hy
  · intro y hy
    rw [Env.set_ne _ _ (chars_ne (hne y _ hy (.inl (by decide))))]; exact hr.idx y hy
  · intro y hy
    rw [Env.set_ne _ _ (chars_ne (hne y _ hy (.inl (by decide))))]; exact hr.elem y hy
  · intro y hy hyo
    rw [Env.set_ne _ _ (chars_ne hyo)]; exact hr.arr y hy hyo
  · exact ⟨hr.out.1, Env.set_same _ _ _, hl.trans hr.out.2.2⟩

/-- Leaving a block. -/
theorem Rel.leave {Γ' : Scope} {σ' : KEnv V} {ρ' : Env V} {out' : List V} (hr : Rel S Γ σ ρ out) (hr' : Rel S Γ' σ' ρ' out') (hΓ : ∀ y k, Γ y = some k → Γ' y = some k) :
    Rel S Γ (KEnv.leave σ σ') (Sem.leave S.c.L ρ ρ') out' := by
  have hl : ∀ y, (ρ y).isSome → Sem.leave S.c.L ρ ρ' y = ρ' y := by
    intro y hy; unfold Sem.leave; split
    · rfl
    · simp [hy]
  refine ⟨?_, ?_, ?_, ?_, ?_, ?_⟩
  · intro y hy
    refine hr'.names y ?_
    unfold Sem.leave at hy
    split at hy
    · exact hy
    · simp only at hy
      split at hy
      · exact hy
      · cases hy
  · intro hL y hy
    unfold Sem.leave
    rw [if_neg hL, hr.fresh hL y hy]; rfl
  · intro y hy
    obtain ⟨_, _, _, h1, h2, _⟩ := hr.idx y hy
    rw [leave_keep h1, hl _ (by rw [h2]; rfl)]
    exact hr'.idx y (hΓ y _ hy)
  · intro y hy
    obtain ⟨_, h1, h2, _⟩ := hr.elem y hy
    rw [leave_keep h1, hl _ (by rw [h2]; rfl)]
    exact hr'.elem y (hΓ y _ hy)
  · intro y hy hyo
    obtain ⟨_, _, h2, _⟩ := hr.arr y hy hyo
    rw [hl _ (by rw [h2]; rfl)]
    exact hr'.arr y (hΓ y _ hy) hyo
  · rw [hl _ (by rw [hr.out.2.1]; rfl)]
    exact ⟨hr.out.1, hr'.out.2⟩

theorem RetRel.leave {ρ' : Env V} {out' : List V} (hr : Rel S Γ σ ρ out) (h : RetRel S ρ' out') : RetRel S (Sem.leave S.c.L ρ ρ') out' := by
  unfold RetRel Sem.leave
  split
  · exact h
  · simp only [hr.out.2.1, Option.isSome_some, if_true]; exact h

theorem rangeList_unit (n : Int) : rangeList 0 n 1 = irange n := by
  unfold rangeList irange
  rw [if_pos (by decide)]
  have : ((n - 0 + 1 - 1) / 1).toNat = n.toNat := by simp
  rw [this]
  refine List.map_congr_left fun k _ => ?_
  simp

theorem isLit_litEx (i : Int) : isLit (litEx i) = true := by unfold litEx; split <;> rfl

theorem applyWrites_length (out : List V) : ∀ ws : List (Int × V), (applyWrites out ws).length = out.length := by
  intro ws
  induction ws generalizing out with
  | nil => rfl
  | cons w ws ih =>
    show (applyWrites (out.set w.1.toNat w.2) ws).length = _
    rw [ih, List.length_set]

theorem evalInt_out (h : S.Ok) {e : Ex} {i : Int} (hx : Out S.F (evals S.c ρ e) fun l => ∃ v, l = [v] ∧ S.c.N.asInt v = some i ∧ S.B i) :
    Out S.F (evalInt S.c ρ e) fun j => j = i := by
  unfold evalInt eval
  rw [bind_assoc]
  refine hx.bind ?_
  rintro _ ⟨v, rfl, hv, _⟩
  simp only [one, ok_bind, hv]
  exact .ok rfl

theorem evalOut (h : S.Ok) {e : Ex} {i : Int} (hx : Out S.F (evals S.c ρ e) fun l => ∃ v, l = [v] ∧ S.c.N.asInt v = some i ∧ S.B i) :
    Out S.F (eval S.c ρ e) fun v => S.c.N.asInt v = some i ∧ S.B i := by
  unfold eval
  refine hx.bind ?_
  rintro _ ⟨v, rfl, hv⟩
  exact .ok hv

theorem lit_out (h : S.Ok) {i : Int} (hB : S.B i) : Out S.F (evals S.c ρ (litEx i)) fun l => ∃ v, l = [v] ∧ S.c.N.asInt v = some i ∧ S.B i :=
  litEx_out h hB fun v hv => ⟨v, rfl, intV_asInt h hv, hB⟩

/-- Declaring an index variable (a temporary, the index of a split loop, a GPU index). -/
theorem run_declI (h : S.Ok) (hr : Rel S Γ σ ρ out) {x : VName} (hx : Γ x = none) {e : Ex} {i : Int} {k : Sx} {Q : Env V × Bool → Prop}
    (he : Out S.F (eval S.c ρ e) fun v => S.c.N.asInt v = some i ∧ S.B i)
    (hk : ∀ ρ', Rel S (Γ.add x .idx) (σ.set x (.I i)) ρ' out → Out S.F (run S.c k ρ') Q) : Out S.F (run S.c (declare S.c.L .int64 x e k) ρ) Q := by
  unfold declare
  by_cases hL : S.c.L = .python
  · simp only [if_pos hL, Syntax.var, run]
    refine he.bind fun v hv => hk _ (hr.declareI hx hv.1 hv.2)
  · simp only [if_neg hL, run, hr.fresh hL x hx, Option.isSome_none, Bool.false_eq_true, or_false]
    refine he.bind fun v hv => ?_
    refine (out_lift (P := fun u => S.c.N.asInt u = some i) (fun e => h.fcast _ v i (.inr rfl) hv.1 hv.2 e) (fun u hu => h.ints.cast _ v i u (.inr rfl) hv.1 hu)).bind fun u hu => ?_
    exact hk _ (hr.declareI hx hu hv.2)

/-- Declaring an element variable. -/
theorem run_declD (h : S.Ok) (hr : Rel S Γ σ ρ out) {x : VName} (hx : Γ x = none) {e : Ex} {v : V} {k : Sx} {Q : Env V × Bool → Prop}
    (he : Out S.F (eval S.c ρ e) fun u => (convert S.c.N S.ty u = none → S.F) ∧ ∀ w, convert S.c.N S.ty u = some w → w = v ∧ S.T v)
    (hk : ∀ ρ', Rel S (Γ.add x .elem) (σ.set x (.D v)) ρ' out → Out S.F (run S.c k ρ') Q) : Out S.F (run S.c (declare S.c.L S.dt x e k) ρ) Q := by
  unfold declare
  by_cases hL : S.c.L = .python
  · have hty : S.ty = none := by simp [Setup.ty, elemType, hL]
    simp only [if_pos hL, Syntax.var, run]
    refine he.bind fun u hu => ?_
    rw [hty] at hu
    obtain ⟨rfl, hT⟩ := hu.2 u rfl
    have := hr.declareD hx hT
    rw [hty] at this
    exact hk _ this
  · have hty : S.ty = some (LangSpec.typename S.dt) := by simp [Setup.ty, elemType, hL]
    simp only [if_neg hL, run, hr.fresh hL x hx, Option.isSome_none, Bool.false_eq_true, or_false]
    refine he.bind fun u hu => ?_
    rw [hty] at hu
    refine (out_lift (P := fun w => w = v ∧ S.T v) hu.1 hu.2).bind ?_
    rintro w ⟨rfl, hT⟩
    have := hr.declareD hx hT
    rw [hty] at this
    exact hk _ this

/-- Assigning to an element variable. -/
theorem run_set (h : S.Ok) (hr : Rel S Γ σ ρ out) {x : VName} (hx : Γ x = some .elem) {e : Ex} {v : V} {k : Sx} {Q : Env V × Bool → Prop}
    (he : Out S.F (eval S.c ρ e) fun u => (convert S.c.N S.ty u = none → S.F) ∧ ∀ w, convert S.c.N S.ty u = some w → w = v ∧ S.T v)
    (hk : ∀ ρ', Rel S Γ (σ.set x (.D v)) ρ' out → Out S.F (run S.c k ρ') Q) : Out S.F (run S.c (.assign (Syntax.var x) e k) ρ) Q := by
  by_cases hL : S.c.L = .python
  · have hty : S.ty = none := by simp [Setup.ty, elemType, hL]
    simp only [if_pos hL, Syntax.var, run]
    refine he.bind fun u hu => ?_
    rw [hty] at hu
    obtain ⟨rfl, hT⟩ := hu.2 u rfl
    have := hr.setD hx hT
    rw [hty] at this
    exact hk _ this
  · obtain ⟨_, _, h2, _⟩ := hr.elem x hx
    simp only [if_neg hL, Syntax.var, run, h2]
    refine he.bind fun u hu => ?_
    refine (out_lift (P := fun w => w = v ∧ S.T v) hu.1 hu.2).bind ?_
    rintro w ⟨rfl, hT⟩
    exact hk _ (hr.setD hx hT)

/-- Running the text of a statement, and then `k`. -/
theorem run_sim (h : S.Ok) : ∀ {s : Stmt} {Γ Γ' : Scope} {σ : KEnv V} {ρ : Env V} {out : List V} {st : St V}, s.scope Γ = some Γ' → Stmt.tidy S s → Rel S Γ σ ρ out →
    exec S.m s σ = some st → ∀ {k : Sx} {Q : Env V × Bool → Prop},
    (st.ret = false → ∀ ρ', Rel S Γ' st.env ρ' (applyWrites out st.writes) → Out S.F (run S.c k ρ') Q) →
    (st.ret = true → ∀ ρ', RetRel S ρ' (applyWrites out st.writes) → Q (ρ', true)) → Out S.F (run S.c (s.sx S.c.L k) ρ) Q := by
  intro s
  induction s with
  | skip =>
    intro Γ Γ' σ ρ out st hsc ht hr hex k Q hk hq
    cases hsc; cases hex
    exact hk rfl ρ hr
  | seq s t ihs iht =>
    intro Γ Γ' σ ρ out st hsc ht hr hex k Q hk hq
    obtain ⟨Γ1, sc1, sc2⟩ := Option.bind_eq_some_iff.1 hsc
    simp only [exec, Option.bind_eq_bind, Option.bind_eq_some_iff] at hex
    obtain ⟨r1, h1, hex⟩ := hex
    simp only [Stmt.sx]
    split at hex
    · rename_i hret
      cases hex
      exact ihs sc1 ht.1 hr h1 (fun e => by rw [hret] at e; cases e) hq
    · rename_i hret
      obtain ⟨r2, h2, hex⟩ := Option.bind_eq_some_iff.1 hex
      cases hex
      refine ihs sc1 ht.1 hr h1 (fun _ ρ1 hr1 => ?_) (fun e => absurd e hret)
      refine iht sc2 ht.2 hr1 h2 (fun e ρ2 hr2 => hk e ρ2 ?_) (fun e ρ2 hr2 => hq e ρ2 ?_)
      · rw [applyWrites_append]; exact hr2
      · rw [applyWrites_append]; exact hr2
  | initI x e =>
    intro Γ Γ' σ ρ out st hsc ht hr hex k Q hk hq
    unfold Stmt.scope at hsc
    split at hsc
    · rename_i hok
      obtain ⟨hx, rfl⟩ := declare_eq hsc
      simp only [exec] at hex
      split at hex
      · cases hex
      · simp only [Option.bind_eq_bind, Option.bind_eq_some_iff] at hex
        obtain ⟨i, hi, hex⟩ := hex
        cases hex
        simp only [Stmt.sx]
        exact run_declI h hr hx (evalOut h (evalI_out h hr hi hok ht)) fun ρ' hr' => hk rfl ρ' hr'
    · cases hsc
  | initD dt x e =>
    intro Γ Γ' σ ρ out st hsc ht hr hex k Q hk hq
    obtain ⟨rfl, hf, hno⟩ := ht
    unfold Stmt.scope at hsc
    split at hsc
    · rename_i hok
      obtain ⟨hx, rfl⟩ := declare_eq hsc
      simp only [exec] at hex
      split at hex
      · cases hex
      · simp only [Option.bind_eq_bind, Option.bind_eq_some_iff] at hex
        obtain ⟨v, hv, hex⟩ := hex
        cases hex
        simp only [Stmt.sx]
        exact run_declD h hr hx (form_out h hr hv hok hf hno) fun ρ' hr' => hk rfl ρ' hr'
    · cases hsc
  | set x e =>
    intro Γ Γ' σ ρ out st hsc ht hr hex k Q hk hq
    unfold Stmt.scope at hsc
    split at hsc
    · rename_i hok
      cases hsc
      simp only [exec] at hex
      split at hex
      · simp only [Option.bind_eq_bind, Option.bind_eq_some_iff] at hex
        obtain ⟨v, hv, hex⟩ := hex
        cases hex
        simp only [Stmt.sx]
        exact run_set h hr hok.1 (form_out h hr hv hok.2 ht.1 ht.2) fun ρ' hr' => hk rfl ρ' hr'
      · cases hex
    · cases hsc
  | store i e =>
    intro Γ Γ' σ ρ out st hsc ht hr hex k Q hk hq
    unfold Stmt.scope at hsc
    split at hsc
    · rename_i hok
      cases hsc
      simp only [exec, Option.bind_eq_bind, Option.bind_eq_some_iff] at hex
      obtain ⟨j, hj, v, hv, hex⟩ := hex
      split at hex
      · rename_i hlt
        cases hex
        simp only [Stmt.sx, Syntax.var, run, hr.out.2.1]
        refine (form_out h hr hv hok.2.2 ht.2.1 ht.2.2).bind fun u hu => ?_
        refine (evalInt_out h (evalI_out h hr hj hok.2.1 ht.1)).bind ?_
        intro j' hj'
        obtain rfl := hj'.symm
        refine (out_lift (P := fun w => w = v ∧ S.T v) hu.1 hu.2).bind ?_
        rintro w ⟨rfl, hT⟩
        have hp : position S.c.L out.length j = some j.toNat := by
          rw [position, if_pos hlt.1, if_pos (by rw [hr.out.2.2]; exact hlt.2)]
        simp only [hp]
        exact hk rfl _ (hr.setOut (List.length_set ..))
      · cases hex
    · cases hsc
  | ite c t f iht ihf =>
    intro Γ Γ' σ ρ out st hsc ht hr hex k Q hk hq
    unfold Stmt.scope at hsc
    split at hsc
    · rename_i hok
      cases hsc
      obtain ⟨hok, st1, st2⟩ := hok
      obtain ⟨Γ1, sc1⟩ := Option.isSome_iff_exists.1 st1
      obtain ⟨Γ2, sc2⟩ := Option.isSome_iff_exists.1 st2
      simp only [exec, Option.bind_eq_bind, Option.bind_eq_some_iff] at hex
      obtain ⟨b, hb, hex⟩ := hex
      simp only [Stmt.sx, run]
      refine (evalOut h (evalI_out h hr hb hok ht.1)).bind fun v hv => ?_
      rw [truth_int h hv.1]
      have fin : ∀ {s : Stmt} {Γ1 : Scope} {r : St V}, s.scope Γ = some Γ1 → exec S.m s σ = some r →
          (∀ {k : Sx} {Q : Env V × Bool → Prop}, (r.ret = false → ∀ ρ', Rel S Γ1 r.env ρ' (applyWrites out r.writes) → Out S.F (run S.c k ρ') Q) →
            (r.ret = true → ∀ ρ', RetRel S ρ' (applyWrites out r.writes) → Q (ρ', true)) → Out S.F (run S.c (s.sx S.c.L k) ρ) Q) →
          st = ⟨KEnv.leave σ r.env, r.writes, r.ret⟩ →
          Out S.F (run S.c (s.sx S.c.L .done) ρ >>= fun r => if r.2 = true then pure (Sem.leave S.c.L ρ r.1, true) else run S.c k (Sem.leave S.c.L ρ r.1)) Q := by
        intro s Γ1 r sc he ih hst
        subst hst
        refine Out.bind (P := fun p => p.2 = r.ret ∧ (r.ret = false → Rel S Γ1 r.env p.1 (applyWrites out r.writes)) ∧ (r.ret = true → RetRel S p.1 (applyWrites out r.writes))) ?_ ?_
        · refine ih (fun e ρ' hr' => ?_) (fun e ρ' hr' => ⟨e.symm, fun e' => ?_, fun _ => hr'⟩)
          · exact .ok ⟨e.symm, fun _ => hr', fun e' => by rw [e] at e'; cases e'⟩
          · rw [e] at e'; cases e'
        · rintro ⟨ρ', q⟩ ⟨rfl, h1, h2⟩
          dsimp only
          cases hret : r.ret with
          | true => exact .ok (hq hret _ ((h2 hret).leave hr))
          | false => exact hk hret _ (hr.leave (h1 hret) (scope_mono sc))
      by_cases hb0 : b ≠ 0
      · rw [if_pos hb0] at hex
        obtain ⟨r, hr', hex⟩ := Option.bind_eq_some_iff.1 hex
        cases hex
        rw [if_pos (decide_eq_true hb0)]
        exact fin sc1 hr' (fun a b => iht sc1 ht.2.1 hr hr' a b) rfl
      · rw [if_neg hb0] at hex
        obtain ⟨r, hr', hex⟩ := Option.bind_eq_some_iff.1 hex
        cases hex
        rw [if_neg (by simpa using hb0)]
        exact fin sc2 hr' (fun a b => ihf sc2 ht.2.2 hr hr' a b) rfl
    · cases hsc
  | guardRet c =>
    intro Γ Γ' σ ρ out st hsc ht hr hex k Q hk hq
    unfold Stmt.scope at hsc
    split at hsc
    · rename_i hok
      cases hsc
      simp only [exec, Option.bind_eq_bind, Option.bind_eq_some_iff] at hex
      obtain ⟨b, hb, hex⟩ := hex
      cases hex
      simp only [Stmt.sx, run]
      refine (evalOut h (evalI_out h hr hb hok ht)).bind fun v hv => ?_
      rw [truth_int h hv.1]
      have hself : Rel S Γ (KEnv.leave σ σ) (Sem.leave S.c.L ρ ρ) out := hr.leave hr fun _ _ h => h
      have hσ : KEnv.leave σ σ = σ := by
        funext y
        unfold KEnv.leave
        cases σ y <;> simp
      rw [hσ] at hself
      by_cases hb0 : b ≠ 0
      · rw [if_pos (decide_eq_true hb0)]
        exact .ok (hq (by simp [hb0]) _ hself.out.2.1)
      · rw [if_neg (by simpa using hb0)]
        exact hk (by simp [hb0]) _ hself
    · cases hsc
  | gpuIdx x th d =>
    intro Γ Γ' σ ρ out st hsc ht hr hex k Q hk hq
    obtain ⟨hx, rfl⟩ := declare_eq hsc
    simp only [exec] at hex
    split at hex
    · cases hex
    · simp only [Option.bind_eq_bind, Option.bind_eq_some_iff] at hex
      obtain ⟨i, hi, hex⟩ := hex
      cases hex
      obtain ⟨hL, hg, hB⟩ := h.gpu th d i hi
      simp only [Stmt.sx]
      refine run_declI h hr hx ?_ fun ρ' hr' => hk rfl ρ' hr'
      have hn : ρ (if th = true then "threadIdx".toList else "blockIdx".toList) = none := by
        cases th
        · exact unnamed h hr (s := "blockIdx") (by decide)
        · exact unnamed h hr (s := "threadIdx") (by decide)
      generalize (if th = true then "threadIdx".toList else "blockIdx".toList) = z at hn hg
      have hev : eval S.c ρ (.member (.name z) (LangSpec.dimText d)) = lift (intV S.c.N i) := by
        unfold eval
        simp only [evals]
        rw [if_pos ⟨hL, by rw [hn]; rfl⟩, hg]
        dsimp only
        cases intV S.c.N i <;> rfl
      rw [hev]
      exact out_lift (fun e => h.flit i hB e) fun v hv => ⟨intV_asInt h hv, hB⟩
  | loop md x n b ih =>
    intro Γ Γ' σ ρ out st hsc ht hr hex k Q hk hq
    obtain ⟨Γ1, sc1, hsc⟩ := Option.bind_eq_some_iff.1 hsc
    split at hsc
    · rename_i sc2
      cases hsc
      obtain ⟨hx, rfl⟩ := declare_eq sc1
      obtain ⟨Γ2, sc2⟩ := Option.isSome_iff_exists.1 sc2
      simp only [exec] at hex
      split at hex
      · cases hex
      simp only [Option.bind_eq_bind] at hex
      simp only [Stmt.sx, run, isLit_litEx, Bool.true_eq_false, or_false]
      have hne : ¬ (S.c.L ≠ .python ∧ (ρ x.chars).isSome = true) := by
        rintro ⟨hL, hs⟩
        rw [hr.fresh hL x hx] at hs
        cases hs
      rw [if_neg hne]
      refine (evalInt_out h (lit_out h h.small.1)).bind ?_
      intro z0 hz0
      obtain rfl := hz0.symm
      refine (evalInt_out h (lit_out h ht.1)).bind ?_
      intro z1 hz1
      obtain rfl := hz1.symm
      refine (evalInt_out h (lit_out h h.small.2)).bind ?_
      intro z2 hz2
      obtain rfl := hz2.symm
      rw [if_neg (by omega), rangeList_unit]
      generalize htyx : (if S.c.L = .python then none else some "int".toList) = tyx
      have hcast : ∀ v i, S.c.N.asInt v = some i → S.B i → Out S.F (lift (convert S.c.N tyx v)) fun u => S.c.N.asInt u = some i := by
        intro v i hv hB
        subst htyx
        by_cases hL : S.c.L = .python
        · rw [if_pos hL]; exact .ok hv
        · rw [if_neg hL]
          exact out_lift (fun e => h.fcast _ v i (.inl rfl) hv hB e) fun u hu => h.ints.cast _ v i u (.inl rfl) hv hu
      have hcast' : ∀ i, S.B i → Out S.F (lift ((intV S.c.N i).bind (convert S.c.N tyx))) fun u => S.c.N.asInt u = some i := by
        intro i hB
        cases hv : intV S.c.N i with
        | none => exact .inl ⟨rfl, h.flit i hB hv⟩
        | some v => exact hcast v i (intV_asInt h hv) hB
      have key : ∀ (l : List Int) (s0 s1 : St V) (ρ0 : Env V), (∀ i ∈ l, S.B i) → s0.ret = false → Rel S Γ s0.env ρ0 (applyWrites out s0.writes) →
          l.foldlM (fun (st : St V) i =>
            if st.ret then pure st else (exec S.m b (st.env.set x (.I i))).bind fun r => pure ⟨KEnv.leave st.env r.env, st.writes ++ r.writes, r.ret⟩) s0 = some s1 →
          Out S.F (l.foldlM (pass S.c tyx x.chars (fun ρ => run S.c (b.sx S.c.L .done) ρ)) (ρ0, false)) fun p =>
            p.2 = s1.ret ∧ (s1.ret = false → Rel S Γ s1.env p.1 (applyWrites out s1.writes)) ∧ (s1.ret = true → RetRel S p.1 (applyWrites out s1.writes)) := by
        intro l
        induction l with
        | nil =>
          intro s0 s1 ρ0 _ hret hr0 hf
          cases hf
          exact .ok ⟨hret.symm, fun _ => hr0, fun e => by rw [hret] at e; cases e⟩
        | cons i l ihl =>
          intro s0 s1 ρ0 hB hret hr0 hf
          rw [List.foldlM_cons] at hf
          obtain ⟨s2, h2, hf⟩ := Option.bind_eq_some_iff.1 hf
          rw [hret, if_neg (by decide)] at h2
          obtain ⟨r, hrb, h2⟩ := Option.bind_eq_some_iff.1 h2
          cases h2
          rw [List.foldlM_cons]
          have hpass : Out S.F (pass S.c tyx x.chars (fun ρ => run S.c (b.sx S.c.L .done) ρ) (ρ0, false) i) fun p =>
              p.2 = r.ret ∧ (r.ret = false → Rel S Γ (KEnv.leave s0.env r.env) p.1 (applyWrites out (s0.writes ++ r.writes))) ∧
                (r.ret = true → RetRel S p.1 (applyWrites out (s0.writes ++ r.writes))) := by
            simp only [pass, Bool.false_eq_true, if_false]
            refine (hcast' i (hB i List.mem_cons_self)).bind fun v hv => ?_
            have hrx : Rel S (Γ.add x .idx) (s0.env.set x (.I i)) (ρ0.set x.chars (.num tyx v)) (applyWrites out s0.writes) :=
              hr0.declareI hx hv (hB i List.mem_cons_self)
            refine Out.bind (P := fun p => p.2 = r.ret ∧ (r.ret = false → Rel S Γ2 r.env p.1 (applyWrites out (s0.writes ++ r.writes))) ∧
              (r.ret = true → RetRel S p.1 (applyWrites out (s0.writes ++ r.writes)))) ?_ ?_
            · refine ih sc2 ht.2 hrx hrb (fun e ρ' hr' => ?_) (fun e ρ' hr' => ⟨e.symm, fun e' => ?_, fun _ => ?_⟩)
              · rw [← applyWrites_append] at hr'
                exact .ok ⟨e.symm, fun _ => hr', fun e' => by rw [e] at e'; cases e'⟩
              · rw [e] at e'; cases e'
              · rw [← applyWrites_append] at hr'; exact hr'
            · rintro ⟨ρ', q⟩ ⟨rfl, h1, h2⟩
              simp only
              have hΓ : ∀ y k, Γ y = some k → Γ2 y = some k := fun y k hy => scope_mono sc2 y k (by
                unfold Scope.add
                rw [if_neg (by rintro rfl; rw [hx] at hy; cases hy)]
                exact hy)
              cases hrr : r.ret with
              | true =>
                simp only [true_or, if_true]
                exact .ok ⟨rfl, fun e => (by cases e), fun _ => (h2 hrr).leave hr0⟩
              | false =>
                have hrel := hr0.leave (h1 hrr) hΓ
                by_cases hL : S.c.L = .python
                · rw [if_pos (.inr hL)]
                  exact .ok ⟨rfl, fun _ => hrel, fun e => (by cases e)⟩
                · rw [if_neg (by simp [hL])]
                  obtain ⟨i', t', v', e1, e2, e3, _⟩ := (h1 hrr).idx x (scope_mono sc2 x .idx (by simp [Scope.add]))
                  rw [exec_idx hrb x i (by simp [KEnv.set])] at e1
                  cases e1
                  have e2' : ρ' x.chars = some (.num t' v') := e2
                  rw [e2']
                  dsimp only
                  rw [if_pos e3]
                  exact .ok ⟨rfl, fun _ => hrel, fun e => (by cases e)⟩
          refine hpass.bind ?_
          rintro ⟨ρ1, q⟩ ⟨rfl, h1, h2⟩
          cases hrr : r.ret with
          | false =>
            rw [hrr] at hf
            exact ihl _ s1 ρ1 (fun j hj => hB j (List.mem_cons_of_mem _ hj)) rfl (h1 hrr) hf
          | true =>
            rw [hrr] at hf
            have stay : ∀ (l : List Int) (s : St V), s.ret = true → l.foldlM (fun (st : St V) i =>
                if st.ret then pure st else (exec S.m b (st.env.set x (.I i))).bind fun r => pure ⟨KEnv.leave st.env r.env, st.writes ++ r.writes, r.ret⟩) s = some s := by
              intro l
              induction l with
              | nil => intro s _; rfl
              | cons j l ihl => intro s hs; rw [List.foldlM_cons, hs, if_pos rfl]; exact ihl s hs
            have stay' : ∀ (l : List Int), l.foldlM (pass S.c tyx x.chars (fun ρ => run S.c (b.sx S.c.L .done) ρ)) (ρ1, true) = .ok (ρ1, true) := by
              intro l
              induction l with
              | nil => rfl
              | cons j l ihl => rw [List.foldlM_cons]; simp only [pass, if_true, ok_bind]; exact ihl
            rw [stay _ _ rfl] at hf
            cases hf
            rw [stay']
            exact .ok ⟨rfl, fun e => (by cases e), fun _ => h2 hrr⟩
      have hB : ∀ i ∈ irange n, S.B i := by
        intro i hi
        unfold irange at hi
        obtain ⟨j, hj, rfl⟩ := List.mem_map.1 hi
        rw [List.mem_range] at hj
        exact h.down n _ ht.1 (Int.natCast_nonneg _) (by simp only [Int.ofNat_eq_natCast]; omega)
      refine (key (irange n) ⟨σ, [], false⟩ st ρ hB rfl hr hex).bind ?_
      rintro ⟨ρ', q⟩ ⟨rfl, h1, h2⟩
      simp only
      cases hrr : st.ret with
      | true => exact .ok (hq hrr _ (h2 hrr))
      | false => exact hk hrr _ (h1 hrr)
    · cases hsc

end
end Whale.Sem
