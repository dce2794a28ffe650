import Verif.Spec.Scope
import Verif.Proofs.KernelGpu
import Verif.Proofs.Launch
/-
C35: generated kernels are well scoped.
-/
namespace Whale
open Algo Codegen
variable {V : Type}

namespace Scp

def OffS (n n' : Nat) (Γ Γ' : Scope) : Prop := ∀ y, ¬ InTmp n n' y → Γ' y = Γ y
def FreshS (n : Nat) (Γ : Scope) : Prop := ∀ k, n ≤ k → Γ (.tmp k) = none

theorem OffS.refl (n n' : Nat) (Γ : Scope) : OffS n n' Γ Γ := fun _ _ => rfl
theorem OffS.trans {n n1 n' : Nat} {a b c : Scope} (h : OffS n n1 a b) (k : OffS n1 n' b c) (h1 : n ≤ n1) (h2 : n1 ≤ n') : OffS n n' a c := by
  intro y hy
  rw [k y (fun ⟨i, e, a, b⟩ => hy ⟨i, e, by omega, b⟩), h y (fun ⟨i, e, a, b⟩ => hy ⟨i, e, a, by omega⟩)]
theorem OffS.fresh {n n' : Nat} {a b : Scope} (h : OffS n n' a b) (hf : FreshS n a) (hn : n ≤ n') : FreshS n' b := by
  intro k hk
  rw [h _ (by rintro ⟨i, e, _, hi⟩; cases e; omega)]
  exact hf k (by omega)
theorem OffS.le {n n' : Nat} {a b : Scope} (h : OffS n n' a b) (hf : FreshS n a) {y : VName} {k : Kind} (hy : a y = some k) : b y = some k := by
  rw [h y, hy]
  rintro ⟨i, rfl, hi, _⟩
  rw [hf i hi] at hy; cases hy
theorem OffS.add (n : Nat) (a : Scope) (k : Kind) : OffS n (n + 1) a (a.add (.tmp n) k) := by
  intro y hy
  unfold Scope.add
  rw [if_neg]
  rintro rfl
  exact hy ⟨n, rfl, by omega, by omega⟩

theorem ki_mono {Γ Γ' : Scope} (h : ∀ {y k}, Γ y = some k → Γ' y = some k) : ∀ {e : KI}, e.ok Γ = true → e.ok Γ' = true
  | .var x, he => by simp only [KI.ok, beq_iff_eq] at he ⊢; exact h he
  | .lit _, _ => rfl
  | .bin _ l r, he => by simp only [KI.ok, Bool.and_eq_true] at he ⊢; exact ⟨ki_mono h he.1, ki_mono h he.2⟩

theorem kd_mono {Γ Γ' : Scope} (h : ∀ {y k}, Γ y = some k → Γ' y = some k) : ∀ {e : KD}, e.ok Γ = true → e.ok Γ' = true
  | .var x, he => by simp only [KD.ok, beq_iff_eq] at he ⊢; exact h he
  | .lit _, _ => rfl
  | .zero _, _ => rfl
  | .un _ e, he => by simp only [KD.ok] at he ⊢; exact kd_mono h he
  | .bin _ l r, he => by simp only [KD.ok, Bool.and_eq_true] at he ⊢; exact ⟨kd_mono h he.1, kd_mono h he.2⟩
  | .read a i, he => by simp only [KD.ok, Bool.and_eq_true, beq_iff_eq] at he ⊢; exact ⟨h he.1, ki_mono h he.2⟩

theorem declare_fresh {Γ : Scope} {x : VName} (h : Γ x = none) (k : Kind) : Γ.declare x k = some (Γ.add x k) := by
  unfold Scope.declare; rw [if_pos h]

theorem add_same (Γ : Scope) (x : VName) (k : Kind) : Γ.add x k x = some k := by simp [Scope.add]
theorem add_ne (Γ : Scope) {x y : VName} (k : Kind) (h : y ≠ x) : Γ.add x k y = Γ y := by simp [Scope.add, h]

theorem genI_scope {S : List LoopIndex} : ∀ {e : IExpr} {n : Nat} {s : Stmt} {k : KI} {n' : Nat} {Γ : Scope}, IWF S e → (∀ l ∈ S, Γ l.name = some .idx) → FreshS n Γ →
    genI e n = .ok (s, k, n') → n ≤ n' ∧ ∃ Γ', s.scope Γ = some Γ' ∧ OffS n n' Γ Γ' ∧ k.ok Γ' = true
  | .index l, n, s, k, n', Γ, hw, hS, hf, hg => by
    cases hg
    exact ⟨Nat.le_refl _, Γ, rfl, .refl _ _ _, by simp only [KI.ok, beq_iff_eq]; exact hS l hw⟩
  | .const c, n, s, k, n', Γ, hw, hS, hf, hg => by
    cases hg
    exact ⟨Nat.le_refl _, Γ, rfl, .refl _ _ _, rfl⟩
  | .bin op l r, n, s, k, n', Γ, hw, hS, hf, hg => by
    simp only [genI, idxOp_render hw.1, Bool.true_eq_false, if_false] at hg
    obtain ⟨⟨s1, k1, n1⟩, h1, hg⟩ := except_bind_ok hg
    obtain ⟨⟨s2, k2, n2⟩, h2, hg⟩ := except_bind_ok hg
    cases hg
    obtain ⟨l1, Γ1, e1, o1, v1⟩ := genI_scope hw.2.1 hS hf h1
    have hf1 := o1.fresh hf l1
    obtain ⟨l2, Γ2, e2, o2, v2⟩ := genI_scope hw.2.2 (fun l hl => o1.le hf (hS l hl)) hf1 h2
    have hf2 := o2.fresh hf1 l2
    dsimp only
    refine ⟨by omega, Γ2.add (.tmp n2) .idx, ?_, ((o1.trans o2 l1 l2).trans (.add _ _ _) (by omega) (by omega)), ?_⟩
    · simp only [Stmt.scope, e1, e2, Option.bind_some, KI.ok, ki_mono (o2.le hf1) v1, v2, Bool.and_self, if_true]
      exact declare_fresh (hf2 _ (Nat.le_refl _)) _
    · simp only [KI.ok, add_same, beq_self_eq_true]

theorem genIs_scope {S : List LoopIndex} : ∀ {es : List IExpr} {n : Nat} {s : Stmt} {ks : List KI} {n' : Nat} {Γ : Scope}, (∀ e ∈ es, IWF S e) → (∀ l ∈ S, Γ l.name = some .idx) → FreshS n Γ →
    genIs es n = .ok (s, ks, n') → n ≤ n' ∧ ∃ Γ', s.scope Γ = some Γ' ∧ OffS n n' Γ Γ' ∧ ∀ k ∈ ks, k.ok Γ' = true
  | [], n, s, k, n', Γ, hw, hS, hf, hg => by
    cases hg
    exact ⟨Nat.le_refl _, Γ, rfl, .refl _ _ _, by simp⟩
  | e :: es, n, s, k, n', Γ, hw, hS, hf, hg => by
    simp only [genIs] at hg
    obtain ⟨⟨s1, k1, n1⟩, h1, hg⟩ := except_bind_ok hg
    obtain ⟨⟨s2, k2, n2⟩, h2, hg⟩ := except_bind_ok hg
    cases hg
    obtain ⟨l1, Γ1, e1, o1, v1⟩ := genI_scope (hw e (by simp)) hS hf h1
    have hf1 := o1.fresh hf l1
    obtain ⟨l2, Γ2, e2, o2, v2⟩ := genIs_scope (fun e he => hw e (by simp [he])) (fun l hl => o1.le hf (hS l hl)) hf1 h2
    dsimp only
    refine ⟨by omega, Γ2, ?_, o1.trans o2 l1 l2, ?_⟩
    · simp only [Stmt.scope, e1, e2, Option.bind_some]
    · intro k hk
      rcases List.mem_cons.1 hk with rfl | hk
      · exact ki_mono (o2.le hf1) v1
      · exact v2 k hk

theorem sumKI_ok {Γ : Scope} : ∀ {ts : List KI} {t : KI}, t.ok Γ = true → (∀ x ∈ ts, x.ok Γ = true) → (sumKI t ts).ok Γ = true
  | [], t, h, _ => h
  | x :: ts, t, h, hs => by
    refine sumKI_ok (ts := ts) (t := .bin .Add t x) ?_ (fun y hy => hs y (by simp [hy]))
    simp only [KI.ok, h, hs x (by simp), Bool.and_self]

theorem zipWith_ok {Γ : Scope} : ∀ {ks : List KI} {st : List Int}, (∀ k ∈ ks, k.ok Γ = true) → ∀ x ∈ List.zipWith (fun a s => KI.bin .Mul a (.lit s)) ks st, x.ok Γ = true
  | [], _, _, x, hx => by simp at hx
  | _ :: _, [], _, x, hx => by simp at hx
  | k :: ks, s :: st, h, x, hx => by
    rw [List.zipWith_cons_cons, List.mem_cons] at hx
    rcases hx with rfl | hx
    · simp only [KI.ok, h k (by simp), Bool.and_self]
    · exact zipWith_ok (fun k hk => h k (by simp [hk])) x hx

theorem flatIdx_ok {Γ : Scope} {shape : List Int} {ks : List KI} (h : ∀ k ∈ ks, k.ok Γ = true) : (flatIdx shape ks).ok Γ = true := by
  unfold flatIdx
  split
  · rfl
  · have := zipWith_ok (st := stridesFromShape shape) h
    split
    · rfl
    · rename_i t ts e
      rw [e] at this
      exact sumKI_ok (this t (by simp)) (fun x hx => this x (by simp [hx]))

theorem bufIdx_ok {Γ : Scope} {o : Int} {st : List Int} {ks : List KI} (h : ∀ k ∈ ks, k.ok Γ = true) : (bufIdx o st ks).ok Γ = true := by
  unfold bufIdx
  refine sumKI_ok rfl ?_
  intro x hx
  obtain ⟨p, hp, rfl⟩ := List.mem_map.1 hx
  have := List.of_mem_zip (List.mem_filter.1 hp).1
  simp only [KI.ok, h _ this.1, Bool.and_self]

theorem genD_scope {g : Graph V} {tbl : Tbl} {args : Args} {dt : DType} {S : List LoopIndex} {lvl : Nat} : ∀ {e : DExpr} {n : Nat} {s : Stmt} {k : KD} {n' : Nat} {Γ : Scope},
    DWF g S lvl e → (∀ l ∈ S, Γ l.name = some .idx) → (∀ x, IsArg args x → Γ x = some .arr) → FreshS n Γ →
    genD g tbl args dt e n = .ok (s, k, n') → n ≤ n' ∧ ∃ Γ', s.scope Γ = some Γ' ∧ OffS n n' Γ Γ' ∧ k.ok Γ' = true
  | .const c, n, s, k, n', Γ, hw, hS, hA, hf, hg => by
    cases hg
    exact ⟨Nat.le_refl _, Γ, rfl, .refl _ _ _, rfl⟩
  | .un op e, n, s, k, n', Γ, hw, hS, hA, hf, hg => by
    simp only [genD, isUnary_render hw.1, Bool.true_eq_false, if_false] at hg
    obtain ⟨⟨s1, k1, n1⟩, h1, hg⟩ := except_bind_ok hg
    cases hg
    obtain ⟨l1, Γ1, e1, o1, v1⟩ := genD_scope hw.2 hS hA hf h1
    have hf1 := o1.fresh hf l1
    dsimp only
    refine ⟨by omega, Γ1.add (.tmp n1) .elem, ?_, o1.trans (.add _ _ _) l1 (by omega), ?_⟩
    · simp only [Stmt.scope, e1, Option.bind_some, KD.ok, v1, if_true]
      exact declare_fresh (hf1 _ (Nat.le_refl _)) _
    · simp only [KD.ok, add_same, beq_self_eq_true]
  | .bin op l r, n, s, k, n', Γ, hw, hS, hA, hf, hg => by
    simp only [genD, isBinary_render hw.1, Bool.true_eq_false, if_false] at hg
    obtain ⟨⟨s1, k1, n1⟩, h1, hg⟩ := except_bind_ok hg
    obtain ⟨⟨s2, k2, n2⟩, h2, hg⟩ := except_bind_ok hg
    cases hg
    obtain ⟨l1, Γ1, e1, o1, v1⟩ := genD_scope hw.2.1 hS hA hf h1
    have hf1 := o1.fresh hf l1
    obtain ⟨l2, Γ2, e2, o2, v2⟩ := genD_scope hw.2.2 (fun l hl => o1.le hf (hS l hl)) (fun x hx => o1.le hf (hA x hx)) hf1 h2
    have hf2 := o2.fresh hf1 l2
    dsimp only
    refine ⟨by omega, Γ2.add (.tmp n2) .elem, ?_, ((o1.trans o2 l1 l2).trans (.add _ _ _) (by omega) (by omega)), ?_⟩
    · simp only [Stmt.scope, e1, e2, Option.bind_some, KD.ok, kd_mono (o2.le hf1) v1, v2, Bool.and_self, if_true]
      exact declare_fresh (hf2 _ (Nat.le_refl _)) _
    · simp only [KD.ok, add_same, beq_self_eq_true]
  | .tern op c t f, n, s, k, n', Γ, hw, hS, hA, hf, hg => by
    obtain ⟨hop, hc, ht, hff⟩ := hw
    simp only [genD, hop, ne_eq, not_true, if_false] at hg
    obtain ⟨⟨s1, k1, n1⟩, h1, hg⟩ := except_bind_ok hg
    obtain ⟨⟨s2, k2, n2⟩, h2, hg⟩ := except_bind_ok hg
    obtain ⟨⟨s3, k3, n3⟩, h3, hg⟩ := except_bind_ok hg
    cases hg
    have o0 : OffS n (n + 1) Γ (Γ.add (.tmp n) .elem) := .add _ _ _
    have hf0 := o0.fresh hf (by omega)
    obtain ⟨l1, Γ1, e1, o1, v1⟩ := genI_scope hc (fun l hl => o0.le hf (hS l hl)) hf0 h1
    have hf1 := o1.fresh hf0 l1
    have hS1 : ∀ l ∈ S, Γ1 l.name = some .idx := fun l hl => o1.le hf0 (o0.le hf (hS l hl))
    have hA1 : ∀ x, IsArg args x → Γ1 x = some .arr := fun x hx => o1.le hf0 (o0.le hf (hA x hx))
    obtain ⟨l2, Γ2, e2, o2, v2⟩ := genD_scope ht hS1 hA1 hf1 h2
    have hf1' : FreshS n2 Γ1 := fun k hk => hf1 k (by omega)
    obtain ⟨l3, Γ3, e3, o3, v3⟩ := genD_scope hff hS1 hA1 hf1' h3
    have hres : Γ1 (.tmp n) = some .elem := o1.le hf0 (add_same _ _ _)
    dsimp only
    refine ⟨by omega, Γ1, ?_, (o0.trans o1 (by omega) l1).trans (.refl _ _ _) (by omega) (by omega), ?_⟩
    · simp only [Stmt.scope, KD.ok, if_true, declare_fresh (hf n (Nat.le_refl _)), Option.bind_some, e1, v1, e2, e3, v2, v3, o2.le hf1 hres, o3.le hf1' hres, and_self, Option.isSome_some]
    · simp only [KD.ok, hres, beq_self_eq_true]
  | .red op e rs, n, s, k, n', Γ, hw, hS, hA, hf, hg => absurd hw id
  | .func f idx, n, s, k, n', Γ, hw, hS, hA, hf, hg => by
    simp only [genD] at hg
    obtain ⟨a, h0, hg⟩ := except_bind_ok hg
    obtain ⟨⟨s1, ks, n1⟩, h1, hg⟩ := except_bind_ok hg
    cases hF : tbl f with
    | none => rw [hF] at hg; cases hg
    | some F =>
      rw [hF] at hg
      cases hg
      obtain ⟨l1, Γ1, e1, o1, v1⟩ := genIs_scope hw.2.2 hS hf h1
      refine ⟨l1, Γ1, e1, o1, ?_⟩
      simp only [KD.ok, o1.le hf (hA a (fncName_isArg h0)), beq_self_eq_true, flatIdx_ok v1, Bool.and_self]
  | .buf b idx, n, s, k, n', Γ, hw, hS, hA, hf, hg => by
    simp only [genD] at hg
    obtain ⟨a, h0, hg⟩ := except_bind_ok hg
    obtain ⟨⟨s1, ks, n1⟩, h1, hg⟩ := except_bind_ok hg
    cases hg
    obtain ⟨l1, Γ1, e1, o1, v1⟩ := genIs_scope hw.2.2.2.2 hS hf h1
    refine ⟨l1, Γ1, e1, o1, ?_⟩
    simp only [KD.ok, o1.le hf (hA a (bufName_isArg h0)), beq_self_eq_true, bufIdx_ok v1, Bool.and_self]

/-- Γ extended by index variables. -/
def addAll (Γ : Scope) : List VName → Scope
  | [] => Γ
  | x :: xs => addAll (Γ.add x .idx) xs

theorem addAll_mem {xs : List VName} : ∀ {Γ : Scope} {x : VName}, x ∈ xs → addAll Γ xs x = some .idx := by
  induction xs with
  | nil => intro Γ x h; simp at h
  | cons y ys ih =>
    intro Γ x h
    by_cases hx : x ∈ ys
    · exact ih hx
    · rcases List.mem_cons.1 h with rfl | h
      · simp only [addAll]
        have : ∀ (zs : List VName) (Γ : Scope), x ∉ zs → addAll Γ zs x = Γ x := by
          intro zs
          induction zs with
          | nil => intros; rfl
          | cons z zs ih => intro Γ hz; simp only [addAll]; rw [ih _ (fun h => hz (by simp [h])), add_ne _ _ (fun e => hz (by simp [e]))]
        rw [this _ _ hx, add_same]
      · exact absurd h hx

theorem addAll_not_mem {xs : List VName} : ∀ {Γ : Scope} {x : VName}, x ∉ xs → addAll Γ xs x = Γ x := by
  induction xs with
  | nil => intros; rfl
  | cons z zs ih => intro Γ x hz; simp only [addAll]; rw [ih (fun h => hz (by simp [h])), add_ne _ _ (fun e => hz (by simp [e]))]

theorem redLoops_scope {body : Stmt} : ∀ {rs : List LoopIndex} {Γ : Scope}, (rs.map (·.name)).Nodup → (∀ l ∈ rs, Γ l.name = none) →
    (body.scope (addAll Γ (rs.map (·.name)))).isSome = true → ∃ Γ', (redLoops rs body).scope Γ = some Γ' ∧ (rs = [] ∨ Γ' = Γ)
  | [], Γ, _, _, h => by
    obtain ⟨Γ', h⟩ := Option.isSome_iff_exists.1 h
    exact ⟨Γ', h, .inl rfl⟩
  | l :: ls, Γ, hn, hf, h => by
    simp only [List.map_cons, List.nodup_cons] at hn
    obtain ⟨Γ', e, _⟩ := redLoops_scope (body := body) (rs := ls) (Γ := Γ.add l.name .idx) hn.2
      (fun m hm => by refine (add_ne _ _ ?_).trans (hf m (by simp [hm])); exact fun e => hn.1 (e ▸ List.mem_map.2 ⟨m, hm, rfl⟩)) h
    refine ⟨Γ, ?_, .inr rfl⟩
    simp only [redLoops, Stmt.scope, declare_fresh (hf l (by simp)), Option.bind_some, e, Option.isSome_some, if_true]

theorem genLoops_scope {body : Stmt} : ∀ {ls : List LoopSched} {Γ : Scope}, (∀ l ∈ ls, l.kind = .spatial) → (ls.map (·.lv.name)).Nodup → (∀ l ∈ ls, Γ l.lv.name = none) →
    (body.scope (addAll Γ (ls.map (·.lv.name)))).isSome = true → ((genLoops ls body).scope Γ).isSome = true
  | [], Γ, _, _, _, h => h
  | l :: ls, Γ, hk, hn, hf, h => by
    simp only [List.map_cons, List.nodup_cons] at hn
    have ih := genLoops_scope (body := body) (ls := ls) (Γ := Γ.add l.lv.name .idx) (fun l hl => hk l (by simp [hl])) hn.2
      (fun m hm => by refine (add_ne _ _ ?_).trans (hf m (by simp [hm])); exact fun e => hn.1 (e ▸ List.mem_map.2 ⟨m, hm, rfl⟩)) h
    have hd := declare_fresh (hf l (by simp)) .idx
    simp only [genLoops, hk l (by simp), ne_eq, not_true, if_false]
    split <;> simp only [Stmt.scope, hd, Option.bind_some, ih, if_true, Option.isSome_some]

/-- Nothing is declared that a kernel body will declare. -/
structure Clean (Γ : Scope) (n : Nat) : Prop where
  fresh : FreshS n Γ
  acc : Γ .acc = none
  red : ∀ p, Γ (.loop true p) = none

theorem root_scope {g : Graph V} {tbl : Tbl} {args : Args} {dt : DType} {a : Nat} {e : DExpr} {n : Nat} {s : Stmt} {k : KD} {n' : Nat} {Γ : Scope}
    (hw : RootWF g a e) (hS : ∀ l ∈ outLoops g a, Γ l.name = some .idx) (hA : ∀ x, IsArg args x → Γ x = some .arr) (hc : Clean Γ n)
    (hg : genD g tbl args dt e n = .ok (s, k, n')) : ∃ Γ', s.scope Γ = some Γ' ∧ (∀ {y k}, Γ y = some k → Γ' y = some k) ∧ k.ok Γ' = true := by
  cases e with
  | red op e rs =>
    obtain ⟨hop, hr, hd⟩ := hw
    simp only [genD, hop, ne_eq, not_true, if_false] at hg
    obtain ⟨⟨s1, k1, n1⟩, h1, hg⟩ := except_bind_ok hg
    cases hg
    have hname : ∀ l ∈ rs, l.name = .loop true l.pos := fun l hl => by simp only [LoopIndex.name, (hr.2 l hl).2]
    have hnd : (rs.map (·.name)).Nodup := by
      have : rs.map (·.name) = (rs.map (·.pos)).map (VName.loop true) := by
        rw [List.map_map]; exact List.map_congr_left hname
      rw [this]
      exact hr.1.map (fun x y h => by cases h; rfl)
    let Γ0 := Γ.add .acc .elem
    have hΓ0 : ∀ {y k}, Γ y = some k → Γ0 y = some k := by
      intro y k hy
      by_cases e : y = .acc
      · subst e; rw [hc.acc] at hy; cases hy
      · simp only [Γ0, add_ne _ _ e]; exact hy
    let Γ1 := addAll Γ0 (rs.map (·.name))
    have hin : ∀ y, (∀ p, y ≠ .loop true p) → Γ1 y = Γ0 y := by
      intro y hy
      apply addAll_not_mem
      intro h
      obtain ⟨l, hl, rfl⟩ := List.mem_map.1 h
      exact hy _ (hname l hl)
    have hf1 : FreshS n Γ1 := by
      intro k hk
      rw [hin _ (fun p h => by cases h)]
      simp only [Γ0, add_ne Γ Kind.elem (show VName.tmp k ≠ .acc from fun h => by cases h)]
      exact hc.fresh k hk
    obtain ⟨l1, Γ2, e1, o1, v1⟩ := genD_scope (Γ := Γ1) hd (by
        intro l hl
        rcases List.mem_append.1 hl with h | h
        · have hne : ∀ p, l.name ≠ .loop true p := by
            intro p e
            have := (mem_outLoops h).2
            simp only [LoopIndex.name, this, VName.loop.injEq, Bool.false_eq_true, false_and] at e
          rw [hin _ hne]; exact hΓ0 (hS l h)
        · exact addAll_mem (List.mem_map.2 ⟨l, h, rfl⟩)) (by
        intro x hx
        rw [hin _ (by intro p e; rcases hx with ⟨_, _, h⟩ | ⟨_, _, h⟩ <;> rw [h] at e <;> cases e)]
        exact hΓ0 (hA x hx)) hf1 h1
    have hacc2 : Γ2 .acc = some .elem := o1.le hf1 (by rw [hin _ (fun p h => by cases h)]; exact add_same _ _ _)
    have hbody : ((Stmt.seq s1 (.set .acc (.bin .Add (.var .acc) k1))).scope Γ1) = some Γ2 := by
      simp only [Stmt.scope, e1, Option.bind_some, hacc2, KD.ok, beq_self_eq_true, v1, Bool.and_self, and_self, if_true]
    have hΓ2 : ∀ {y k}, Γ0 y = some k → Γ2 y = some k := by
      intro y k hy
      refine o1.le hf1 ?_
      rw [hin]
      · exact hy
      · rintro p rfl
        simp only [Γ0, add_ne Γ Kind.elem (show VName.loop true p ≠ .acc from fun h => by cases h), hc.red] at hy
        cases hy
    obtain ⟨Γ', e', hor⟩ := redLoops_scope (body := .seq s1 (.set .acc (.bin .Add (.var .acc) k1))) (rs := rs) (Γ := Γ0) hnd (by
      intro l hl
      rw [hname l hl]
      simp only [Γ0, add_ne Γ Kind.elem (show VName.loop true l.pos ≠ .acc from fun h => by cases h), hc.red]) (by
      rw [show addAll Γ0 (rs.map (·.name)) = Γ1 from rfl, hbody]; rfl)
    have hle : ∀ {y k}, Γ0 y = some k → Γ' y = some k := by
      intro y k hy
      rcases hor with rfl | rfl
      · have : Γ' = Γ2 := by
          simp only [redLoops, List.map_nil] at e'
          have hb := hbody
          simp only [Γ1, List.map_nil, addAll] at hb
          rw [hb] at e'; cases e'; rfl
        subst this; exact hΓ2 hy
      · exact hy
    refine ⟨Γ', ?_, fun hy => hle (hΓ0 hy), ?_⟩
    · simp only [Stmt.scope, KD.ok, if_true, declare_fresh hc.acc, Option.bind_some]
      exact e'
    · simp only [KD.ok, hle (add_same _ _ _), beq_self_eq_true]
  | _ =>
    obtain ⟨_, Γ', e, o, v⟩ := genD_scope hw hS hA hc.fresh hg
    exact ⟨Γ', e, fun h => o.le hc.fresh h, v⟩

/-- Scopes in which the element computation of a kernel starts. -/
structure Ready (g : Graph V) (a : Nat) (args : Args) (n : Nat) (Γ : Scope) : Prop where
  idx : ∀ l ∈ outLoops g a, Γ l.name = some .idx
  args : ∀ x, IsArg args x → Γ x = some .arr
  out : Γ .out = some .arr
  clean : Clean Γ n

theorem store_scope {g : Graph V} {t : Tbl} {F : Func} {a : Nat} {n : Nat} {s : Stmt} {k : KD} {n' : Nat} {Γ : Scope} (hE : EntryOK g a F)
    (hg : genD g t (argsOf F) F.outDtype F.expr n = .ok (s, k, n')) (h : Ready g a (argsOf F) n Γ) :
    ((Stmt.seq s (.store (flatIdx F.outShape (F.outLoops.map (fun l => KI.var l.name))) k)).scope Γ).isSome = true := by
  obtain ⟨Γ', e, hle, hk⟩ := root_scope hE.wf h.idx h.args h.clean hg
  have hi : (flatIdx F.outShape (F.outLoops.map (fun l => KI.var l.name))).ok Γ' = true := by
    apply flatIdx_ok
    intro k hk
    obtain ⟨l, hl, rfl⟩ := List.mem_map.1 hk
    simp only [KI.ok, beq_iff_eq]
    exact hle (h.idx l (hE.loops ▸ hl))
  simp only [Stmt.scope, e, Option.bind_some, hle h.out, hi, hk, and_self, if_true, Option.isSome_some]

theorem params_names (g : Graph V) (t : Tbl) (args : Args) (dt : DType) : (params g t args dt).map (·.1) =
    .out :: ((List.range args.bufs.length).map (VName.arg false) ++ (List.range args.fncs.length).map (fun i => VName.arg true (args.bufs.length + i))) := by
  simp only [params, List.map_cons, List.map_append, List.map_map]
  congr 2
  · rw [← zipIdx_map_snd args.bufs (VName.arg false)]; rfl
  · rw [← zipIdx_map_snd args.fncs (fun i => VName.arg true (args.bufs.length + i))]; rfl

theorem params_nodup (g : Graph V) (t : Tbl) (args : Args) (dt : DType) : ((params g t args dt).map (·.1)).Nodup := by
  rw [params_names, List.nodup_cons, List.nodup_append]
  refine ⟨?_, List.nodup_range.map (fun x y h => by cases h; rfl), List.nodup_range.map (fun x y h => by simpa using h), ?_⟩
  · simp
  · intro x hx y hy e
    obtain ⟨_, _, rfl⟩ := List.mem_map.1 hx
    obtain ⟨_, _, rfl⟩ := List.mem_map.1 hy
    cases e

/-- The kernel's parameters and index variables. -/
theorem ready_of {g : Graph V} {t : Tbl} {args : Args} {dt : DType} {K : Kernel} {a : Nat} {n : Nat} (hp : K.params = params g t args dt) {xs : List VName}
    (h1 : ∀ l ∈ outLoops g a, l.name ∈ xs) (h2 : ∀ x ∈ xs, (∃ p, x = .loop false p) ∨ (∃ p, x = .splitO p) ∨ ∃ p, x = .splitI p) :
    Ready g a args n (addAll K.scope0 xs) := by
  have hn : ∀ x, (∀ p, x ≠ .loop false p) → (∀ p, x ≠ .splitO p) → (∀ p, x ≠ .splitI p) → addAll K.scope0 xs x = K.scope0 x := by
    intro x e1 e2 e3
    apply addAll_not_mem
    intro h
    rcases h2 x h with ⟨p, h⟩ | ⟨p, h⟩ | ⟨p, h⟩
    · exact e1 p h
    · exact e2 p h
    · exact e3 p h
  have h0 : ∀ x, (x ∉ (params g t args dt).map (·.1)) → K.scope0 x = none := by
    intro x hx; simp only [Kernel.scope0, hp, hx, if_false]
  have h0' : ∀ x, (x ∈ (params g t args dt).map (·.1)) → K.scope0 x = some .arr := by
    intro x hx; simp only [Kernel.scope0, hp, hx, if_true]
  refine ⟨fun l hl => addAll_mem (h1 l hl), ?_, ?_, ⟨?_, ?_, ?_⟩⟩
  · intro x hx
    rw [hn]
    · apply h0'
      have := isArg_params (g := g) (t := t) (dt := dt) hx
      simp only [params, List.tail_cons] at this
      simp only [params, List.map_cons, List.mem_cons]
      exact Or.inr this
    all_goals (intro p e; rcases hx with ⟨_, _, h⟩ | ⟨_, _, h⟩ <;> rw [h] at e <;> cases e)
  · rw [hn _ (fun _ h => by cases h) (fun _ h => by cases h) (fun _ h => by cases h)]
    apply h0'; rw [params_names]; simp
  · intro k _
    rw [hn _ (fun _ h => by cases h) (fun _ h => by cases h) (fun _ h => by cases h)]
    apply h0; rw [params_names]; simp
  · rw [hn _ (fun _ h => by cases h) (fun _ h => by cases h) (fun _ h => by cases h)]
    apply h0; rw [params_names]; simp
  · intro p
    rw [hn _ (fun _ h => by cases h) (fun _ h => by cases h) (fun _ h => by cases h)]
    apply h0; rw [params_names]; simp

theorem scope0_loop {g : Graph V} {t : Tbl} {args : Args} {dt : DType} {K : Kernel} (hp : K.params = params g t args dt) {x : VName}
    (h : (∃ p, x = .loop false p) ∨ (∃ p, x = .splitO p) ∨ ∃ p, x = .splitI p) : K.scope0 x = none := by
  simp only [Kernel.scope0, hp, params_names]
  rw [if_neg]
  rcases h with ⟨p, rfl⟩ | ⟨p, rfl⟩ | ⟨p, rfl⟩ <;> simp

theorem addAll_add {x : VName} : ∀ {xs : List VName} {Γ : Scope}, x ∉ xs → (addAll Γ xs).add x .idx = addAll (Γ.add x .idx) xs
  | [], _, _ => rfl
  | y :: ys, Γ, h => by
    simp only [List.mem_cons, not_or] at h
    simp only [addAll]
    rw [addAll_add h.2]
    congr 1
    funext z
    simp only [Scope.add]
    by_cases e1 : z = x
    · subst e1; simp [h.1]
    · simp [e1]

theorem kernel_scope {isGpu : Bool} {g : Graph V} {t : Tbl} {F : Func} {a : Nat} (hE : EntryOK g a F) {sch : Schedule} {K : Kernel} {n n' : Nat}
    (hs : Sched.schedule isGpu F = .ok sch) (hK : codegen g t F sch (argsOf F) n = .ok (K, n')) : K.WellScoped := by
  have hpar := codegen_params hK
  refine ⟨by rw [hpar]; exact params_nodup _ _ _ _, ?_⟩
  unfold codegen at hK
  obtain ⟨⟨s, k, m⟩, hg, hK⟩ := except_bind_ok hK
  simp only [pure, Except.pure, Except.ok.injEq, Prod.mk.injEq] at hK
  obtain ⟨hK, _⟩ := hK
  have hbody : K.body = genLoops sch.loops (Stmt.seq (splitInits sch.splits) (.seq (splitGuards sch.splits) (.seq s
    (.store (flatIdx F.outShape (F.outLoops.map (fun l => KI.var l.name))) k)))) := by rw [← hK]
  rw [hbody]
  have hnames : F.outLoops.map (·.name) = (List.range (g.ndim a)).map (VName.loop false) := by rw [hE.loops, outLoops_names]
  have hin : ∀ l ∈ outLoops g a, l.name ∈ F.outLoops.map (·.name) := fun l hl => List.mem_map.2 ⟨l, hE.loops ▸ hl, rfl⟩
  have hform : ∀ x ∈ F.outLoops.map (·.name), ∃ p, x = .loop false p := by
    intro x hx
    rw [hnames] at hx
    obtain ⟨p, _, rfl⟩ := List.mem_map.1 hx
    exact ⟨p, rfl⟩
  have hnd : (F.outLoops.map (·.name)).Nodup := by rw [hnames]; exact loopNames_nodup _
  have plain : ∀ sp rd : List LoopSched, sch.splits = [] → sch.loops = sp ++ rd → (∀ l ∈ sp, l.kind = .spatial) → (∀ l ∈ rd, l.kind = .reduce) →
      sp.map (·.lv.name) = F.outLoops.map (·.name) → ((genLoops sch.loops (Stmt.seq (splitInits sch.splits) (.seq (splitGuards sch.splits) (.seq s
    (.store (flatIdx F.outShape (F.outLoops.map (fun l => KI.var l.name))) k))))).scope K.scope0).isSome = true := by
    intro sp rd e1 e2 h1 h2 h3
    rw [e1, e2, genLoops_reduce h2]
    refine genLoops_scope h1 (h3 ▸ hnd) (fun l hl => scope0_loop hpar (.inl (hform _ (h3 ▸ List.mem_map.2 ⟨l, hl, rfl⟩)))) ?_
    rw [h3]
    exact store_scope (Γ := addAll K.scope0 (F.outLoops.map (·.name))) hE hg (ready_of hpar hin (fun x hx => .inl (hform x hx)))
  cases isGpu with
  | false =>
    obtain ⟨sch', sp, rd, e, e1, e2, h1, h2, h3⟩ := cpu_loops (F := F)
    rw [show Sched.schedule false F = Sched.cpu (Sched.init F) from rfl] at hs
    rw [e] at hs; cases hs
    refine plain sp rd e1 e2 (fun l hl => (h1 l hl).1) h2 ?_
    have := congrArg (List.map LoopVar.name) h3
    simpa [List.map_map, Function.comp_def] using this
  | true =>
    rw [show Sched.schedule true F = Sched.gpu (Sched.init F) from rfl] at hs
    by_cases h0 : F.outLoops.length = 0
    · have hol : F.outLoops = [] := List.eq_nil_of_length_eq_zero h0
      simp only [Sched.gpu, spatials_init, hol, List.map_nil, pure, Except.pure, Except.ok.injEq] at hs
      subst hs
      refine plain [] (Sched.init F).loops rfl rfl (by simp) ?_ (by simp [hol])
      intro l hl
      simp only [Sched.init, hol, List.map_nil, List.nil_append] at hl
      obtain ⟨_, _, rfl⟩ := List.mem_map.1 hl; rfl
    · obtain ⟨sch', vs, z, pre, rd, d, hsch, hf⟩ := gpu_form (F := F) h0 hnd (by rw [hE.loops]; intro l hl; exact (mem_outLoops hl).2)
      rw [hsch] at hs; cases hs
      have hvn : vs.map (·.name) ++ [z.name] = F.outLoops.map (·.name) := by
        have := congrArg (List.map LoopVar.name) hf.out
        rw [List.map_map, List.map_append] at this
        exact this.symm
      have hpn : pre.map (·.lv.name) = vs.map (·.name) := by rw [← hf.lvs]; simp [Function.comp_def]
      have hz : ∃ p, z.name = .loop false p := hform _ (by rw [← hvn]; simp)
      have hvf : ∀ x ∈ vs.map (·.name), ∃ p, x = .loop false p := fun x hx => hform x (by rw [← hvn]; simp [hx])
      have hzn : z.name ∉ vs.map (·.name) := by
        have := hnd
        rw [← hvn, List.nodup_append] at this
        intro h; exact this.2.2 _ h _ (by simp) rfl
      have hvnd : (vs.map (·.name)).Nodup := by
        have := hnd
        rw [← hvn, List.nodup_append] at this
        exact this.1
      have hls : (pre ++ splitLoops z d).map (·.lv.name) = vs.map (·.name) ++ [.splitO z.name, .splitI z.name] := by
        rw [List.map_append, hpn]; rfl
      have hcl : ∀ x ∈ vs.map (·.name) ++ [VName.splitO z.name, VName.splitI z.name], (∃ p, x = .loop false p) ∨ (∃ p, x = .splitO p) ∨ ∃ p, x = .splitI p := by
        intro x hx
        rcases List.mem_append.1 hx with h | h
        · exact .inl (hvf x h)
        · simp only [List.mem_cons, List.not_mem_nil, or_false] at h
          rcases h with rfl | rfl
          · exact .inr (.inl ⟨_, rfl⟩)
          · exact .inr (.inr ⟨_, rfl⟩)
      rw [hf.loops, ← List.append_assoc, genLoops_reduce hf.red]
      refine genLoops_scope ?_ ?_ ?_ ?_
      · intro l hl
        rcases List.mem_append.1 hl with h | h
        · exact hf.kind l h
        · simp only [splitLoops, List.mem_cons, List.not_mem_nil, or_false] at h
          rcases h with rfl | rfl <;> rfl
      · rw [hls, List.nodup_append]
        refine ⟨hvnd, by simp, ?_⟩
        intro x hx y hy e
        obtain ⟨p, rfl⟩ := hvf x hx
        simp only [List.mem_cons, List.not_mem_nil, or_false] at hy
        rcases hy with rfl | rfl <;> cases e
      · intro l hl
        exact scope0_loop hpar (hcl _ (hls ▸ List.mem_map.2 ⟨l, hl, rfl⟩))
      · rw [hls, hf.splits]
        let xs := vs.map (·.name) ++ [VName.splitO z.name, VName.splitI z.name]
        let Γ := addAll K.scope0 xs
        have hzx : z.name ∉ xs := by
          intro h
          rcases List.mem_append.1 h with h | h
          · exact hzn h
          · obtain ⟨p, hz⟩ := hz
            rw [hz] at h
            simp at h
        have hzΓ : Γ z.name = none := by
          rw [show Γ z.name = K.scope0 z.name from addAll_not_mem hzx]
          exact scope0_loop hpar (.inl hz)
        have hΓo : Γ (.splitO z.name) = some .idx := addAll_mem (by simp [xs])
        have hΓi : Γ (.splitI z.name) = some .idx := addAll_mem (by simp [xs])
        have hready : Ready g a (argsOf F) n (Γ.add z.name .idx) := by
          rw [addAll_add hzx]
          refine ready_of (xs := z.name :: xs) hpar ?_ ?_
          · intro l hl
            have := hin l hl
            rw [← hvn] at this
            rcases List.mem_append.1 this with h | h
            · simp [xs, List.mem_map.1 h]
            · simp at h; simp [h]
          · intro x hx
            rcases List.mem_cons.1 hx with rfl | hx
            · exact .inl hz
            · exact hcl x hx
        have hbody := store_scope hE hg hready
        have hinit : (splitInits [⟨z, ⟨.splitO z.name, Sched.ceilDiv z.extent 256⟩, ⟨.splitI z.name, 256⟩, 256, decide (z.extent % 256 ≠ 0)⟩]).scope Γ = some (Γ.add z.name .idx) := by
          simp only [splitInits, Stmt.scope, KI.ok, hΓo, hΓi, beq_self_eq_true, Bool.and_self, if_true, declare_fresh hzΓ, Option.bind_some]
        have hguard : (splitGuards [⟨z, ⟨.splitO z.name, Sched.ceilDiv z.extent 256⟩, ⟨.splitI z.name, 256⟩, 256, decide (z.extent % 256 ≠ 0)⟩]).scope (Γ.add z.name .idx) = some (Γ.add z.name .idx) := by
          simp only [splitGuards]
          split <;> simp only [Stmt.scope, KI.ok, add_same, beq_self_eq_true, Bool.and_self, if_true, Option.bind_some]
        show ((Stmt.seq _ (.seq _ _)).scope Γ).isSome = true
        rw [Stmt.scope, hinit, Option.bind_some, Stmt.scope, hguard, Option.bind_some]
        exact hbody

end Scp
end Whale
