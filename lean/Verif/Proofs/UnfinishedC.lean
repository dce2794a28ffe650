import Verif.Proofs.UnfinishedB
import Verif.Proofs.RelatedW
import Verif.Props.Source
import Verif.Proofs.SourceRun
/-
Proofs for C72: what sessions with stopped code generation compute.
-/
namespace Whale
open Mat Hist
variable {V : Type}

/-- `w`'s arrays and gradients in `v`. -/
def World.onto (v w : World V) : World V := { v with g := w.g, grad := w.grad }

section
variable (v : World V)

theorem onto_accum (w : World V) (p : Nat × Nat) : Bwd.accum (v.onto w) p = (Bwd.accum w p).map v.onto := by
  unfold Bwd.accum
  have h1 : (v.onto w).grad p.1 = w.grad p.1 := rfl
  have hg : (v.onto w).g = w.g := rfl
  rw [h1, hg]
  cases w.grad p.1 with
  | none => rfl
  | some o => simp only [bind, Except.bind]; cases ND.binary w.g .Add o p.2 <;> rfl

theorem onto_visit (A : Scalar V) (w : World V) (t : Nat) : Bwd.visit A (v.onto w) t = (Bwd.visit A w t).map v.onto := by
  unfold Bwd.visit
  have h1 : (v.onto w).grad t = w.grad t := rfl
  have hg : (v.onto w).g = w.g := rfl
  rw [h1, hg]
  cases w.grad t with
  | none => rfl
  | some gr =>
    simp only [bind, Except.bind]
    cases Bwd.rule A w.g t gr with
    | error e => rfl
    | ok q => exact foldlM_map (onto_accum v) _ { w with g := q.2 }

theorem onto_seed (A : Scalar V) (w : World V) (y : Nat) : Bwd.seed A (v.onto w) y = v.onto (Bwd.seed A w y) := by
  unfold Bwd.seed
  have h1 : (v.onto w).grad y = w.grad y := rfl
  rw [h1]
  cases w.grad y <;> rfl

theorem onto_backward (A : Scalar V) (w : World V) (y : Nat) : Bwd.backward A (v.onto w) y = (Bwd.backward A w y).map v.onto := by
  unfold Bwd.backward
  simp only [onto_seed]
  have hg : (v.onto (Bwd.seed A w y)).g = (Bwd.seed A w y).g := rfl
  rw [hg]
  simp only [bind, Except.bind]
  cases Bwd.dfs (Bwd.seed A w y).g (y + 1) y ([], []) with
  | error e => rfl
  | ok q => exact foldlM_map (onto_visit v A) _ _

theorem onto_exec1 (b : Backend V) (w : World V) {c : Call V} (hm : ∀ a, c ≠ .materialize a) (ht : ∀ a, c ≠ .tolist a) (hr : c ≠ .reset) :
    exec1 b (v.onto w) c = (exec1 b w c).map fun q => (q.1, v.onto q.2) := by
  have made' : ∀ p : Nat × Graph V, made (v.onto w) p = (made w p).map fun q => (q.1, v.onto q.2) := fun _ => rfl
  have madeE' : ∀ p : Except Err (Nat × Graph V), madeE (v.onto w) p = (madeE w p).map fun q => (q.1, v.onto q.2) := fun p => by cases p <;> rfl
  cases c <;> first | exact madeE' _ | exact made' _ | rfl | skip
  case materialize a => exact absurd rfl (hm a)
  case tolist a => exact absurd rfl (ht a)
  case backward a => simp only [exec1, onto_backward]; cases Bwd.backward b.A w a <;> rfl
  case reset => exact absurd rfl hr

end

/-- There is a program that never computes anything and builds the same arrays and gradients. -/
def Shadowed (b : Backend V) (w : World V) : Prop := ∃ v, Reachable b v ∧ v.g = w.g ∧ v.grad = w.grad

theorem Shadowed.step {b : Backend V} {w w' : World V} (h : Shadowed b w) {c : Call V} (ha : ArgsOK b w c) {o : Out V} (hs : step b w c = .ok (o, w')) : Shadowed b w' := by
  obtain ⟨v, hr, hg, hgr⟩ := h
  by_cases hm : ∃ a, c = .materialize a
  · obtain ⟨a, rfl⟩ := hm
    unfold Hist.step at hs
    split at hs
    · simp only [exec1] at hs
      cases hz : Mat.materialize b w a with
      | error e => rw [hz] at hs; cases hs
      | ok w1 => rw [hz] at hs; cases hs; have := materialize_keeps hz; exact ⟨v, hr, hg.trans this.1.symm, hgr.trans this.2.symm⟩
    · cases hs
  by_cases ht : ∃ a, c = .tolist a
  · obtain ⟨a, rfl⟩ := ht
    unfold Hist.step at hs
    split at hs
    · simp only [exec1] at hs
      cases hz : Mat.tolist b w a with
      | error e => rw [hz] at hs; cases hs
      | ok w1 => rw [hz] at hs; cases hs; have := tolist_keeps hz; exact ⟨v, hr, hg.trans this.1.symm, hgr.trans this.2.symm⟩
    · cases hs
  by_cases hre : c = .reset
  · subst hre
    unfold Hist.step at hs
    split at hs
    · cases hs; exact ⟨v, hr, hg, hgr⟩
    · cases hs
  have hm : ∀ a, c ≠ .materialize a := fun a h => hm ⟨a, h⟩
  have ht : ∀ a, c ≠ .tolist a := fun a h => ht ⟨a, h⟩
  have hv : v = v.onto w := by unfold World.onto; rw [← hg, ← hgr]
  have hsv : Hist.step b v c = .ok (o, v.onto w') := by
    unfold Hist.step at hs ⊢
    rw [hg]
    split at hs
    · rename_i hin
      rw [if_pos hin]
      conv => lhs; rw [hv]
      rw [onto_exec1 v b w hm ht hre, hs]; rfl
    · cases hs
  have hav : ArgsOK b v c := by
    cases c <;> first | exact absurd rfl (hm _) | exact ha | (simp only [ArgsOK, hg] at ha ⊢; exact ha)
  exact ⟨v.onto w', .call hr (.inr hav) (by unfold next; rw [hsv]), rfl, rfl⟩

/-- C64's step, for a world that satisfies the invariants. -/
theorem src_step {R : Runtime V} (hR : R.OK) (hb : Faithful R.b) (hI : Sem.IntLaws R.L R.N) {s : SWorld V} {w : World V} (hi : InvG False R.b w) (hsh : Shadowed R.b w) (hm : Matches R s w)
    {c : Call V} (hok : Src.ArgsOK R s.w c) :
    (∃ e, step R.b w c = .error e ∧ Src.step R s c = .error (.err e)) ∨
    (∃ o w', step R.b w c = .ok (o, w') ∧ (InvG False R.b w' ∧ Later R.b w w') ∧ Shadowed R.b w' ∧
      ((∃ s', Src.step R s c = .ok (o, s') ∧ Matches R s' w') ∨ (Src.step R s c = .error (.fault .arith) ∧ ∃ a, c = .materialize a ∧ ¬ AllTotal R s.w.g (base s.w.g a)))) := by
  have hsw : s.w = w.strip := hm.same
  have hg : s.w.g = w.g := by rw [hsw]; rfl
  have hargs : ArgsOK R.b w c := by
    have h1 := hok.1
    rw [hsw] at h1
    cases c <;> exact h1
  have keep : ∀ o w', step R.b w c = .ok (o, w') → (InvG False R.b w' ∧ Later R.b w w') ∧ Shadowed R.b w' := fun o w' h => ⟨⟨(step_ok hb hi hargs h).inv, (step_ok hb hi hargs h).later⟩, hsh.step hargs h⟩
  unfold step at keep
  unfold step Src.step
  rw [hg]
  by_cases hin : ∀ a ∈ c.arrays, a < w.g.length
  swap
  · rw [if_neg hin, if_neg hin]; exact .inl ⟨_, rfl, rfl⟩
  rw [if_pos hin] at keep
  rw [if_pos hin, if_pos hin]
  by_cases hmat : ∃ a, c = .materialize a
  · obtain ⟨a, rfl⟩ := hmat
    have ha : a < w.g.length := hin a (by simp [Call.arrays])
    obtain ⟨v, hr, hvg, _⟩ := hsh
    obtain ⟨w', e, hsim⟩ := materialize_sim hR hb (P := ¬ AllTotal R w.g (base w.g a)) hi.winv ha hargs.1 hargs.2.1
      (fun hgpu => kernelSizes_of hi.winv.wf ha hargs.1 (hargs.2.2 hgpu))
      (fun hcomp => by
        have h2 := hok.2 a rfl
        rw [hg] at h2
        have := Props.calls_ok hR hb hI hr (by rw [hvg]; exact hcomp) (by rw [hvg]; exact hargs.1) (by rw [hvg]; exact h2 hcomp)
        rw [hvg] at this
        exact this) hm
    have e1 : exec1 R.b w (.materialize a) = .ok (.unit, w') := by simp only [exec1, e]; rfl
    obtain ⟨k1, k2⟩ := keep _ _ e1
    refine .inr ⟨.unit, w', e1, k1, k2, ?_⟩
    rcases hsim with ⟨s', e', hm'⟩ | ⟨e', hP⟩
    · exact .inl ⟨s', by simp only [Src.exec1, e']; rfl, hm'⟩
    · exact .inr ⟨by simp only [Src.exec1, e']; rfl, a, rfl, hP⟩
  · have hne : ∀ a, c ≠ .materialize a := fun a h => hmat ⟨a, h⟩
    by_cases hreset : c = .reset
    · subst hreset
      obtain ⟨k1, k2⟩ := keep _ _ rfl
      refine .inr ⟨_, _, rfl, k1, k2, .inl ⟨_, rfl, ?_, .nil⟩⟩
      rw [hsw]; rfl
    · have hx := strip_exec1 R.b w hne
      have hsrc : Src.exec1 R s c = (Src.lift (exec1 R.b s.w c)).map fun p => (p.1, { s with w := p.2 }) := by
        cases c <;> first | rfl | exact absurd rfl (hne _) | exact absurd rfl hreset
      rw [hsrc, hsw, hx]
      cases he : exec1 R.b w c with
      | error e => exact .inl ⟨e, rfl, rfl⟩
      | ok q =>
        obtain ⟨k1, k2⟩ := keep _ _ he
        refine .inr ⟨q.1, q.2, rfl, k1, k2, .inl ⟨_, rfl, rfl, ?_⟩⟩
        show List.Forall₂ _ s.texts q.2.cache
        rw [exec1_cache hne hreset he]
        exact hm.texts

/-- The world left by stopped code generation, if the generator is put in order. -/
theorem stopped_simU {R : Runtime V} (hR : R.OK) (hb : Faithful R.b) (hI : Sem.IntLaws R.L R.N) {x x' : GWorld V} {a : Nat} (h : Unf.Stopped R true x a x') :
    ∀ {w : World V}, x.ind = 0 → InvG False R.b w → Shadowed R.b w → Matches R x.s w → a < w.g.length → NoScalarReshape w.g (base w.g a) →
    NoCollision (w.log ++ launchLog R.b.isGpu w.g a) → (R.b.isGpu = true → KernelSizes w.g (base w.g a)) → (Computed w.g (base w.g a) → Suits R w.g (base w.g a)) →
    ∃ w', InvG False R.b w' ∧ Later R.b w w' ∧ Shadowed R.b w' ∧ Matches R x'.s w' := by
  induction h with
  | @view a y rest x' h1 h2 h3 _ ih =>
    intro w hx hi hsh hm ha hns hnc hsz hS
    have hg : x.s.w.g = w.g := by rw [hm.same]
    rw [hg] at h2 h3
    have hb2 : base w.g a = base w.g y := base_view hi.winv.wf ha h2 h3
    have hlt := hi.winv.wf.inputs_lt ha y (by rw [h3]; simp)
    refine ih hx hi hsh hm (by omega) (by rw [← hb2]; exact hns) ?_ (by rw [← hb2]; exact hsz) (by rw [← hb2]; exact hS)
    rw [launchLog_base hi.winv.wf (by omega), ← hb2, ← launchLog_base hi.winv.wf ha]; exact hnc
  | @kernel a funcs t scheds pre post p x1 F outs key n o h1 h2 h3 h4 h5 h6 h7 h8 h9 h10 h11 =>
    intro w hx hi hsh hm ha hns hnc hsz hS
    have hsw : x.s.w = w.strip := hm.same
    have hg : x.s.w.g = w.g := by rw [hsw]; rfl
    have hw := hi.winv
    rw [hg] at h1 h2 h3
    have hbase : base w.g a = a := base_nonview h2
    rw [hbase] at hns hsz hS
    have hcc : w.g.ctx a ≠ .const := by intro hc; rw [hc] at h1; cases h1
    obtain ⟨funcs', t', ec, hnd, _, hord, htg, hreach⟩ := convert_good hw.wf ha hns h2 hcc
    rw [h3] at ec
    cases ec
    obtain ⟨scheds', es, hl, hps⟩ := schedAll_ok (isGpu := R.b.isGpu) htg funcs (fun _ h => h)
    rw [h4] at es
    cases es
    have hlog : launchLog R.b.isGpu w.g a = (funcs.zip scheds).filterMap (plan1 w.g t (a + 2)) := by
      unfold launchLog launchLogF
      simp only [h1, h2, h3, h4]; rfl
    have hmap : (funcs.zip scheds).map (·.1) = funcs := by
      apply List.map_fst_zip; omega
    have hsub : ∀ q ∈ pre, q ∈ funcs.zip scheds := fun q hq => by rw [h5]; exact List.mem_append_left _ hq
    have hin : ∀ q ∈ pre, q.1 ∈ funcs := fun q hq => by
      have := List.mem_map_of_mem (f := (·.1)) (hsub q hq)
      rw [hmap] at this; exact this
    have hord' : Ordered t ([] ++ pre.map (·.1)) := by
      have hf : funcs = pre.map (·.1) ++ (p.1 :: post.map (·.1)) := by rw [← hmap, h5]; simp
      intro l1 f l2 hq F hF d hd
      refine hord l1 f (l2 ++ (p.1 :: post.map (·.1))) ?_ F hF d hd
      rw [hf]
      simp only [List.nil_append] at hq
      rw [hq]; simp
    let w0 : World V := { w with log := w.log ++ (funcs.zip scheds).filterMap (plan1 w.g t (a + 2)) }
    have hw0 : WInv R.b w0 := ⟨hw.wf, hw.nn, hw.cpu, hw.dev, fun k K hk => by
        obtain ⟨K0, n0, n, h1, h2⟩ := hw.cache k K hk
        exact ⟨K0, n0, n, List.mem_append_left _ h1, h2⟩, hw.ev⟩
    have hnc0 : NoCollision w0.log := by show NoCollision (w.log ++ _); rw [← hlog]; exact hnc
    have hp0 : ∀ p ∈ pre, p.1 ∈ funcs ∧ ∃ F, t p.1 = some F ∧ Sched.schedule R.b.isGpu F = .ok p.2 := fun q hq => ⟨hin q hq, hps q (hsub q hq)⟩
    have hsz0 : R.b.isGpu = true → ∀ p ∈ pre, ∀ F, t p.1 = some F → ∀ i, (i = p.1 ∨ i ∈ Algo.funcRefs F.expr ∨ i ∈ Algo.bufRefs F.expr) →
        0 < prod (w.g.shape i) ∧ (i = p.1 → w.g.ctx p.1 ≠ .const → GridOK (launchGrid (w.g.shape i))) :=
      fun hgpu q hq F hF i hi => hsz hgpu funcs t h3 q.1 (hin q hq) F hF i hi
    have hlog0 : ∀ p ∈ pre, ∀ q, plan1 w.g t (a + 2) p = some q → q ∈ w0.log := fun q hq r hr => List.mem_append_right _ (List.mem_filterMap.2 ⟨q, hsub q hq, hr⟩)
    obtain ⟨v, hr, hvg, hvgr⟩ := hsh
    have hcalls : CallsOK (¬ AllTotal R w.g a) R w.g a := by
      have hcomp : Computed w.g a := ⟨ha, h2, hcc⟩
      have := Props.calls_ok hR hb hI hr (by rw [hvg]; exact hcomp) (by rw [hvg]; exact hns) (by rw [hvg]; exact hS hcomp)
      rw [hvg] at this
      exact this
    let s0 : SWorld V := { x.s with w := { x.s.w with log := x.s.w.log ++ (funcs.zip scheds).filterMap (plan1 x.s.w.g t (a + 2)) } }
    have hm0 : Matches R s0 w0 := ⟨by show ({ x.s.w with log := _ } : World V) = _; rw [hsw]; rfl, hm.texts⟩
    obtain ⟨w1, e1, hsim⟩ := runFuncs_sim hR hb h3 htg hcalls pre [] w0 hw0 rfl hnc0 hp0 hsz0 hlog0 hord' (by simp) s0 hm0
    obtain ⟨w2, e2, st, _⟩ := runFuncs_ok hb htg pre [] w0 hw0 rfl hnc0 hp0 hsz0 hlog0 hord' (by simp)
    rw [e1] at e2
    cases e2
    have hsrc : pre.foldlM (Src.runFunc R t (a + 2)) s0 = .ok x1.s := by
      have h6' : pre.foldlM (Unf.runFunc R t (a + 2)) (⟨s0, 0⟩ : GWorld V) = .ok x1 := by
        obtain ⟨s, j⟩ := x
        cases hx
        exact h6
      rw [runs_fresh] at h6'
      generalize pre.foldlM (Src.runFunc R t (a + 2)) s0 = z at h6' ⊢
      cases z with
      | error e => cases h6'
      | ok s1 => cases h6'; rfl
    rcases hsim with ⟨s1, e3, hm1⟩ | ⟨e3, _⟩
    swap
    · rw [hsrc] at e3; cases e3
    rw [hsrc] at e3
    cases e3
    have hwi := st.inv
    have hgw : w1.g = w.g := st.g
    refine ⟨{ w1 with tmp := o.tmp }, ⟨⟨hwi.wf, hwi.nn, hwi.cpu, hwi.dev, hwi.cache, hwi.ev⟩, ?_, ?_, fun h => h.elim⟩, ⟨by show Ext w.g w1.g; rw [hgw]; exact .refl _, st.cpuMono, st.devMono⟩, ⟨v, hr, hvg.trans hgw.symm, hvgr.trans st.grad.symm⟩, ?_, hm1.texts⟩
    · show NN w1.g
      rw [hgw]; exact hi.nn
    · intro i k hk
      have hk : w1.grad i = some k := hk
      rw [st.grad] at hk
      show i < w1.g.length ∧ k < w1.g.length ∧ _
      rw [hgw]
      exact hi.gs i k hk
    · show ({ x1.s.w with tmp := o.tmp } : World V) = _
      rw [hm1.same]

/-- A session of source texts in step with a session of statement trees. -/
structure SimU (R : Runtime V) (s : SWorld V) (w : World V) : Prop where
  inv : InvG False R.b w
  shadow : Shadowed R.b w
  ok : Matches R s w

theorem SimU.init (R : Runtime V) : SimU R (Src.init : SWorld V) Mat.init :=
  ⟨⟨(Inv.init R.b).winv, (Inv.init R.b).nn, (Inv.init R.b).gs, fun h => h.elim⟩, ⟨Mat.init, .init, rfl, rfl⟩, Props.matches_init R⟩

theorem SimU.alike {R : Runtime V} {s s' : SWorld V} {w : World V} (h : SimU R s w) (ha : Alike R.L s' s) : SimU R s' w :=
  ⟨h.inv, h.shadow, ha.same.trans h.ok.same, by
    have h1 := ha.texts
    have h2 := h.ok.texts
    generalize s'.texts = l at h1
    generalize s.texts = m at h1 h2
    generalize w.cache = n at h2
    induction h1 generalizing n with
    | nil => cases h2; exact .nil
    | cons hx _ ih => cases h2 with | cons hy h2 => exact .cons ⟨hx.1.trans hy.1, hx.2.trans hy.2⟩ (ih _ h2)⟩

theorem clean_sim {R : Runtime V} (hR : R.OK) (hb : Faithful R.b) (hI : Sem.IntLaws R.L R.N) {x x' : GWorld V} (h : URuns (Src.ArgsOK R) R true x x') {w : World V} (hx : x.ind = 0)
    (hw : SimU R x.s w) : ∃ w', SimU R x'.s w' ∧ Later R.b w w' := by
  induction h with
  | refl => exact ⟨w, hw, .refl _ _⟩
  | @call x1 x' c o hxs hp hs ih =>
    obtain ⟨w1, ⟨hi, hsh, hm⟩, hl⟩ := ih
    obtain ⟨s1, j⟩ := x1
    have hj : j = 0 := ((uruns_ind hxs).2 rfl).trans hx
    subst hj
    rw [step_fresh] at hs
    rcases src_step hR hb hI hi hsh hm hp with ⟨e, _, e2⟩ | ⟨o', w', e1, k1, k2, h3⟩
    · dsimp only at e2; rw [e2] at hs; cases hs
    · rcases h3 with ⟨s', e2, hm'⟩ | ⟨e2, _⟩
      · dsimp only at e2
        rw [e2] at hs
        cases hs
        exact ⟨w', ⟨k1.1, k2, hm'⟩, hl.trans k1.2⟩
      · dsimp only at e2; rw [e2] at hs; cases hs
  | @stopped x1 x' a hxs hlt hp hs ih =>
    obtain ⟨w1, ⟨hi, hsh, hm⟩, hl⟩ := ih
    have hg : x1.s.w.g = w1.g := by rw [hm.same]
    have hlog : x1.s.w.log = w1.log := by rw [hm.same]
    have hargs := hp.1
    have h2 := hp.2 a rfl
    rw [hg] at h2 hlt
    simp only [ArgsOK, hg, hlog] at hargs
    obtain ⟨w', k1, k2, k3, k4⟩ := stopped_simU hR hb hI hs (((uruns_ind hxs).2 rfl).trans hx) hi hsh hm hlt hargs.1 hargs.2.1
      (fun hgpu => kernelSizes_of hi.winv.wf hlt hargs.1 (hargs.2.2 hgpu)) h2
    exact ⟨w', ⟨k1, k3, k4⟩, hl.trans k2⟩

/-- Legal sessions of the program as it is. -/
theorem uruns_sim {R : Runtime V} (hR : R.OK) (hb : Faithful R.b) (hI : Sem.IntLaws R.L R.N) {x x' : GWorld V} (h : URuns (Src.ArgsOK R) R false x x') {w : World V} (hw : SimU R x.s w) :
    ∃ w', SimU R x'.s w' ∧ Later R.b w w' := by
  by_cases hL : R.L = .python
  · obtain ⟨y, hy, e⟩ := uruns_python hL h
    rw [← e]
    exact clean_sim hR hb hI hy rfl hw
  · obtain ⟨y, hy, ha⟩ := uruns_alike (c' := true) hL h (y := ⟨x.s, 0⟩) (.refl R.L x.s)
    obtain ⟨w', h1, h2⟩ := clean_sim hR hb hI hy rfl hw
    exact ⟨w', h1.alike ha, h2⟩

/-- A call in step: it does what the call does to the statement trees; or it stops at a number operation without a result; or it is a `materialize` on the Python backend with a block left open. -/
theorem ustep_sim {R : Runtime V} (hR : R.OK) (hb : Faithful R.b) (hI : Sem.IntLaws R.L R.N) {x : GWorld V} {w : World V} (hw : SimU R x.s w) {c : Call V} (hok : Src.ArgsOK R x.s.w c)
    {o : Out V} {w' : World V} (hs : step R.b w c = .ok (o, w')) :
    (∃ x', Unf.step R x c = .ok (o, x') ∧ SimU R x'.s w') ∨
    (Unf.step R x c = .error (.fault .arith) ∧ ∃ a, c = .materialize a ∧ ¬ AllTotal R x.s.w.g (base x.s.w.g a)) ∨
    (R.L = .python ∧ 0 < x.ind ∧ Unf.step R x c = .error .syntaxError ∧ ∃ a, c = .materialize a) := by
  rcases src_step hR hb hI hw.inv hw.shadow hw.ok hok with ⟨e, e1, _⟩ | ⟨o', w2, e1, k1, k2, h3⟩
  · rw [hs] at e1; cases e1
  rw [hs] at e1
  cases e1
  obtain ⟨s, i⟩ := x
  by_cases hL : R.L = .python
  · rcases Nat.eq_zero_or_pos i with rfl | hi
    · rw [step_fresh]
      rcases h3 with ⟨s', e2, hm'⟩ | ⟨e2, ha⟩
      · dsimp only at e2; rw [e2]; exact .inl ⟨_, rfl, k1.1, k2, hm'⟩
      · dsimp only at e2; rw [e2]; exact .inr (.inl ⟨rfl, ha⟩)
    · obtain ⟨j1, j2⟩ := step_crippled hL hi s c
      have hmat : Unf.step R ⟨s, i⟩ c = .error .syntaxError → ∃ a, c = .materialize a := by
        intro he
        by_contra hm
        have hm : ∀ a, c ≠ .materialize a := fun a h => hm ⟨a, h⟩
        have e : Unf.exec1 R ⟨s, i⟩ c = (Src.exec1 R s c).map fun p => (p.1, ⟨p.2, i⟩) := by
          cases c <;> first | rfl | exact absurd rfl (hm _)
        unfold Unf.step at he
        split at he
        · rw [e] at he
          by_cases hr : c = .reset
          · subst hr; cases he
          · have hs : Src.exec1 R s c = (Src.lift (Hist.exec1 R.b s.w c)).map fun p => (p.1, ⟨p.2, s.texts⟩) := by
              cases c <;> first | rfl | exact absurd rfl (hm _) | exact absurd rfl hr
            rw [hs] at he
            generalize Hist.exec1 R.b s.w c = z at he
            cases z <;> cases he
        · cases he
      rcases h3 with ⟨s', e2, hm'⟩ | ⟨e2, ha⟩
      · obtain ⟨j3, j4⟩ := j2 o s' e2
        by_cases hc : s'.texts = s.texts ∨ c = .reset
        · exact .inl ⟨⟨s', i⟩, j3 hc, k1.1, k2, hm'⟩
        · have := j4 (fun h => hc (.inl h)) (fun h => hc (.inr h))
          exact .inr (.inr ⟨hL, hi, this, hmat this⟩)
      · rcases j1 _ e2 with h | h
        · exact .inr (.inl ⟨h, ha⟩)
        · exact .inr (.inr ⟨hL, hi, h, hmat h⟩)
  · have h4 := step_alike hL (x := ⟨s, i⟩) (y := ⟨s, 0⟩) (.refl R.L s) c
    rw [step_fresh] at h4
    rcases h3 with ⟨s', e2, hm'⟩ | ⟨e2, ha⟩
    · dsimp only at e2
      rw [e2] at h4
      cases hz : Unf.step R ⟨s, i⟩ c with
      | error e => rw [hz] at h4; exact h4.elim
      | ok q =>
        obtain ⟨o2, x2⟩ := q
        rw [hz] at h4
        obtain ⟨rfl, h5⟩ := h4
        have : SimU R s' w' := ⟨k1.1, k2, hm'⟩
        exact .inl ⟨x2, rfl, this.alike h5⟩
    · dsimp only at e2
      rw [e2] at h4
      cases hz : Unf.step R ⟨s, i⟩ c with
      | error e => rw [hz] at h4; cases h4; exact .inr (.inl ⟨rfl, ha⟩)
      | ok q => rw [hz] at h4; exact h4.elim

/-! ### The field `run` of the backend is not used. -/

variable {R : Runtime V} {run : Nat → Machine V → Schedule → Stmt → Option (List (Int × V))}

theorem withRun_unf_materializeF : ∀ (fuel : Nat) (x : GWorld V) (a : Nat), Unf.materializeF (R.withRun run) fuel x a = Unf.materializeF R fuel x a
  | 0, _, _ => rfl
  | fuel + 1, x, a => by
    have hf : ∀ t n, Unf.runFunc (R.withRun run) t n = Unf.runFunc R t n := fun _ _ => rfl
    unfold Unf.materializeF
    simp only [withRun_unf_materializeF fuel, hf]
    rfl

theorem withRun_unf_step (x : GWorld V) (c : Call V) : Unf.step (R.withRun run) x c = Unf.step R x c := by
  unfold Unf.step
  cases c <;> first | rfl | (simp only [Unf.exec1, Unf.materialize, withRun_unf_materializeF])

theorem withRun_unf_stopped {c : Bool} {x x' : GWorld V} {a : Nat} (h : Unf.Stopped R c x a x') : Unf.Stopped (R.withRun run) c x a x' := by
  induction h with
  | view h1 h2 h3 _ ih => exact .view h1 h2 h3 ih
  | kernel n h1 h2 h3 h4 h5 h6 h7 h8 h9 h10 h11 => exact .kernel n h1 h2 h3 h4 h5 h6 h7 h8 h9 h10 h11

theorem withRun_uruns {c : Bool} {x x' : GWorld V} (h : URuns (Src.ArgsOK R) R c x x') : URuns (Src.ArgsOK (R.withRun run)) (R.withRun run) c x x' := by
  induction h with
  | refl => exact .refl
  | call _ hp hs ih => exact .call ih hp (by rw [withRun_unf_step]; exact hs)
  | stopped _ hl hp hs ih => exact .stopped ih hl hp (withRun_unf_stopped hs)

end Whale
