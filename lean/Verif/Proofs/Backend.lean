import Verif.Spec.Backend
import Verif.Proofs.KernelGpu
import Verif.Proofs.Stores
import Verif.Proofs.Shift
/-
Every statement has an outcome (so faithful backends exist), kernels on any backend.
-/
namespace Whale
open Kern Codegen
variable {V : Type}

theorem seqLoop_total {step : KEnv V → Int → Option (St V) → Prop} (h : ∀ σ i, ∃ r, step σ i r) (is : List Int) :
    ∀ st : St V, ∃ r, seqLoop step is st r := by
  induction is with
  | nil => intro st; exact ⟨_, rfl⟩
  | cons i is ih =>
    intro st
    simp only [seqLoop]
    by_cases hr : st.ret = true
    · simp [hr]
    · simp only [hr, if_false, andThen, Bool.false_eq_true]
      obtain ⟨o, ho⟩ := h st.env i
      cases o with
      | none => exact ⟨none, none, ho, rfl⟩
      | some r1 =>
        obtain ⟨r, hr⟩ := ih ⟨KEnv.leave st.env r1.env, st.writes ++ r1.writes, r1.ret⟩
        exact ⟨r, some r1, ho, hr⟩

theorem parLoop_total {σ : KEnv V} {step : Int → Option (St V) → Prop} (h : ∀ i, ∃ r, step i r) (is : List Int) :
    ∃ r, parLoop σ step is r := by
  let f : Int → Option (St V) := fun i => (h i).choose
  have hf : ∀ i, step i (f i) := fun i => (h i).choose_spec
  by_cases hg : ∀ i ∈ is, goodIter σ (f i)
  · exact ⟨_, f, fun i _ => hf i, Or.inl ⟨hg, _, Interleave.flatten _, rfl⟩⟩
  · exact ⟨_, f, fun i _ => hf i, Or.inr ⟨hg, rfl⟩⟩

theorem par_total (m : Machine V) (s : Stmt) : ∀ σ : KEnv V, ∃ r, par m s σ r := by
  induction s with
  | seq s t ihs iht =>
    intro σ
    simp only [par, andThen]
    obtain ⟨o, ho⟩ := ihs σ
    cases o with
    | none => exact ⟨none, none, ho, rfl⟩
    | some r1 =>
      by_cases hr : r1.ret = true
      · exact ⟨some r1, some r1, ho, by simp [hr]⟩
      · obtain ⟨o2, ho2⟩ := iht r1.env
        cases o2 with
        | none => exact ⟨none, some r1, ho, by simp only [hr]; exact ⟨none, ho2, trivial⟩⟩
        | some r2 => exact ⟨some ⟨r2.env, r1.writes ++ r2.writes, r2.ret⟩, some r1, ho, by simp only [hr]; exact ⟨some r2, ho2, rfl⟩⟩
  | loop mode x n b ih =>
    intro σ
    simp only [par]
    split
    · exact ⟨none, rfl⟩
    · split
      · exact parLoop_total (fun i => ih _) _
      · exact seqLoop_total (fun σ i => ih _) _ _
  | ite c t f iht ihf =>
    intro σ
    simp only [par]
    cases evalKI m.ar σ c with
    | none => exact ⟨none, rfl⟩
    | some b =>
      simp only [andThen]
      by_cases hb : b ≠ 0
      · simp only [if_pos hb]
        obtain ⟨o, ho⟩ := iht σ
        cases o with
        | none => exact ⟨none, none, ho, rfl⟩
        | some st => exact ⟨_, some st, ho, rfl⟩
      · simp only [if_neg hb]
        obtain ⟨o, ho⟩ := ihf σ
        cases o with
        | none => exact ⟨none, none, ho, rfl⟩
        | some st => exact ⟨_, some st, ho, rfl⟩
  | _ => intro σ; exact ⟨_, rfl⟩

theorem launch_total (m : Machine V) (sch : Schedule) (body : Stmt) : ∃ r, launch m sch body r := by
  let f : Thread → Option (St V) := fun t => (par_total (onThread m t) body (fun _ => none)).choose
  have hf : ∀ t, par (onThread m t) body (fun _ => none) (f t) := fun t => (par_total (onThread m t) body (fun _ => none)).choose_spec
  by_cases hg : ∀ t ∈ threads sch, (f t).isSome
  · exact ⟨_, f, fun t _ => hf t, Or.inl ⟨hg, _, Interleave.flatten _, rfl⟩⟩
  · exact ⟨_, f, fun t _ => hf t, Or.inr ⟨hg, rfl⟩⟩

/-- Faithful backends of every kind exist. -/
theorem faithful_exists (A : Scalar V) (isC isGpu : Bool) (junk : Nat → V) :
    ∃ b : Backend V, b.A = A ∧ b.isC = isC ∧ b.isGpu = isGpu ∧ b.junk = junk ∧ Faithful b := by
  have h : ∀ (m : Machine V) (sch : Schedule) (body : Stmt), ∃ r, Allowed (V := V) ⟨A, isC, isGpu, fun _ _ _ _ => none, junk⟩ m sch body r := by
    intro m sch body
    unfold Allowed
    simp only
    split
    · exact launch_total m sch body
    · split
      · obtain ⟨o, ho⟩ := par_total m body (fun _ => none)
        exact ⟨_, o, ho, rfl⟩
      · exact ⟨_, rfl⟩
  exact ⟨⟨A, isC, isGpu, fun _ m sch body => (h m sch body).choose, junk⟩, rfl, rfl, rfl, rfl, fun _ m sch body => (h m sch body).choose_spec⟩

theorem kernel_any {b : Backend V} {g : Graph V} {t : Tbl} {F : Func} {m : Machine V} {a : Nat} (hwf : WF g) (hE : EntryOK g a F) (hr : RefsOK g t F)
    (hm : MemOK g (argsOf F) m (denRd m.A g)) (hlen : (m.outLen : Int) = prod (g.shape a)) (hnn : NonNeg (g.shape a)) (n : Nat) :
    ∃ sch K n', Sched.schedule b.isGpu F = .ok sch ∧ codegen g t F sch (argsOf F) n = .ok (K, n') ∧ n ≤ n' ∧
      ∀ r, Allowed b m sch K.body r → ∃ ws, r = some ws ∧ ws.Perm (storesOf m.A g a) := by
  cases hg : b.isGpu with
  | true =>
    obtain ⟨sch, K, n', h1, h2, h3, h4, _⟩ := kernel_gpu hwf hE hr hm hlen hnn n
    refine ⟨sch, K, n', h1, h2, h3, fun r hr => h4 r ?_⟩
    simpa [Allowed, hg] using hr
  | false =>
    obtain ⟨sch, K, n', h1, h2, h3, h4⟩ := kernel_cpu hwf hE hr hm hlen n
    refine ⟨sch, K, n', h1, h2, h3, fun r hr => ?_⟩
    simp only [Allowed, hg, Bool.false_eq_true, if_false] at hr
    split at hr
    · obtain ⟨o, ho, rfl⟩ := hr
      obtain ⟨σ', ws', rfl, _, hp⟩ := h4.par o ho
      exact ⟨ws', rfl, hp⟩
    · obtain ⟨σ', e, _⟩ := h4.seq
      exact ⟨_, by rw [hr, e]; rfl, List.Perm.refl _⟩

end Whale
