import Verif.Spec.Stale
import Verif.Proofs.Switch
import Verif.Proofs.SourceFrame
/-
Sessions in which the kernel cache survives `backend.reset`.
-/
namespace Whale
open Mat Hist
variable {V : Type}

/-- Whether the executor is a GPU's. -/
def Engine.gpu : Engine → Bool
  | .cuda _ => true
  | _ => false

theorem refuses_iff {e k : Engine} : Refuses e k ↔ e.runs k = none := by
  unfold Refuses
  cases e <;> cases k <;> simp [Engine.runs]

theorem runs_self (e : Engine) : e.runs e = some false := by
  cases e <;> simp [Engine.runs]

/-- The key was made for a schedule of the executor's kind. -/
def TagOK (p : Key × Engine) : Prop :=
  ∃ F sch, Sched.schedule p.2.gpu F = .ok sch ∧ p.1.sched = skey sch ∧ p.1.loops = F.outLoops.map fun l => (l.name, l.extent)

/-- The cached kernels are those recorded in `by_`. -/
structure Tags (s : Sess V) : Prop where
  keys : s.by_.map (·.1) = s.w.cache.map (·.1)
  ok : ∀ p ∈ s.by_, TagOK p

theorem asPython_faithful (b : Backend V) (hg : b.isGpu = false) : Faithful b.asPython := by
  intro tick m sch body
  unfold Allowed
  have : b.asPython.isGpu = false := hg
  rw [this]
  rfl

theorem Step.switch {b b' : Backend V} (hA : b'.A = b.A) {w w' : World V} (h : Step b w w') : Step b' w w' :=
  ⟨h.inv.switch hA, h.g, h.log, h.grad, h.cpuMono, h.devMono⟩

theorem Avail.switch {b b' : Backend V} (hg : b'.isGpu = b.isGpu) {w : World V} {i : Nat} (h : Avail b w i) : Avail b' w i := by
  unfold Avail at *
  rw [hg]; exact h

theorem runFunc_cache {b : Backend V} {t : Tbl} {fuel : Nat} {w w' : World V} {p : Nat × Schedule} (h : Mat.runFunc b t fuel w p = .ok w') {F : Func} (hF : t p.1 = some F) {key : Key}
    (hk : cacheKey w.g t fuel F p.2 = .ok key) :
    (key ∈ w.cache.map (·.1) ∧ w'.cache = w.cache) ∨ (key ∉ w.cache.map (·.1) ∧ ∃ K, w'.cache = w.cache ++ [(key, K)]) := by
  unfold Mat.runFunc at h
  simp only [hF] at h
  obtain ⟨outs, h1, h⟩ := except_bind_ok h
  obtain ⟨key', h2, h⟩ := except_bind_ok h
  rw [hk] at h2; cases h2
  cases hc : w.cache.lookup key with
  | some K =>
    simp only [hc] at h
    exact .inl ⟨List.mem_map.2 ⟨_, mem_of_lookup hc, rfl⟩, (invoke_frame h).cache⟩
  | none =>
    simp only [hc] at h
    obtain ⟨⟨K, n⟩, h3, h⟩ := except_bind_ok h
    obtain ⟨w1, h4, h⟩ := except_bind_ok h
    cases h
    exact .inr ⟨lookup_none hc, K, (invoke_frame h4).cache⟩

theorem lookup_some_of_mem {β : Type} {l : List (Key × β)} {k : Key} (h : k ∈ l.map (·.1)) : ∃ v, l.lookup k = some v := by
  cases hl : l.lookup k with
  | some v => exact ⟨v, rfl⟩
  | none => exact absurd h (lookup_none hl)

/-- The kernel for `p` is in the cache and refused. -/
def Foreign (s : Sess V) (t : Tbl) (fuel : Nat) (p : Nat × Schedule) : Prop :=
  ∃ q, plan1 s.w.g t fuel p = some q ∧ ∃ k, s.by_.lookup q.1 = some k ∧ s.e.runs k = none

/-- What a sequence of kernel runs does to the session. -/
structure SStep (s s' : Sess V) : Prop where
  e : s'.e = s.e
  b : s'.b = s.b
  step : Step s.b s.w s'.w
  tags : Tags s'
  by_ : ∃ l, s'.by_ = s.by_ ++ l ∧ ∀ x ∈ l, x.2 = s.e

theorem SStep.refl {s : Sess V} (h : WInv s.b s.w) (ht : Tags s) : SStep s s := ⟨rfl, rfl, .refl h, ht, [], by simp, by simp⟩

theorem SStep.trans {s s' s'' : Sess V} (h : SStep s s') (k : SStep s' s'') : SStep s s'' := by
  obtain ⟨l1, e1, h1⟩ := h.by_
  obtain ⟨l2, e2, h2⟩ := k.by_
  refine ⟨k.e.trans h.e, k.b.trans h.b, h.step.trans (by have := k.step; rw [h.b] at this; exact this), k.tags, l1 ++ l2, by rw [e2, e1, List.append_assoc], fun x hx => ?_⟩
  rcases List.mem_append.1 hx with hx | hx
  · exact h1 x hx
  · rw [h2 x hx, h.e]

theorem lookup_append_of_some {β : Type} {l m : List (Key × β)} {k : Key} {v : β} (h : l.lookup k = some v) : (l ++ m).lookup k = some v := by
  rw [List.lookup_append, h]; rfl

/-- Refused kernels stay refused, and no others become so. -/
theorem SStep.foreign {s s' : Sess V} (h : SStep s s') {t : Tbl} {fuel : Nat} {p : Nat × Schedule} : Foreign s' t fuel p ↔ Foreign s t fuel p := by
  obtain ⟨l, e, hl⟩ := h.by_
  unfold Foreign
  rw [h.step.g, h.e, e]
  constructor
  · rintro ⟨q, hq, k, hk, hr⟩
    refine ⟨q, hq, k, ?_, hr⟩
    rw [List.lookup_append] at hk
    cases hs : s.by_.lookup q.1 with
    | some k' => rw [hs] at hk; exact hk
    | none =>
      rw [hs, Option.none_or] at hk
      have := hl _ (mem_of_lookup hk)
      simp only at this
      rw [this, runs_self] at hr; cases hr
  · rintro ⟨q, hq, k, hk, hr⟩
    exact ⟨q, hq, k, lookup_append_of_some hk, hr⟩

theorem runFuncS_ok {s : Sess V} (hf : Fits s.e s.b) (h : WInv s.b s.w) (hg : Tags s) {t : Tbl} {a f : Nat} {S : Nat → Prop} (ht : TblGood s.w.g t a S) (hS : S f)
    {F : Func} (hF : t f = some F) {sch : Schedule} (hsch : Sched.schedule s.b.isGpu F = .ok sch)
    (hsz : s.b.isGpu = true → ∀ i, (i = f ∨ i ∈ Algo.funcRefs F.expr ∨ i ∈ Algo.bufRefs F.expr) → 0 < prod (s.w.g.shape i) ∧ (i = f → s.w.g.ctx f ≠ .const → GridOK (launchGrid (s.w.g.shape i))))
    (hav : ∀ d ∈ Algo.funcRefs F.expr, Avail s.b s.w d) (hnc : NoCollision s.w.log)
    (hlog : ∀ q, plan1 s.w.g t (a + 2) (f, sch) = some q → q ∈ s.w.log) :
    (Foreign s t (a + 2) (f, sch) ∧ Stale.runFunc t (a + 2) s (f, sch) = .error .typeError) ∨
    (¬ Foreign s t (a + 2) (f, sch) ∧ ∃ s', Stale.runFunc t (a + 2) s (f, sch) = .ok s' ∧ SStep s s' ∧ Avail s.b s'.w f) := by
  obtain ⟨hfa, hfc, F', hF', hE, hrefs⟩ := ht.entry f hS
  rw [hF] at hF'; cases hF'
  have hS' : ∀ f, S f → ∃ F, t f = some F ∧ ∀ d ∈ Algo.funcRefs F.expr, S d ∧ d < f := fun f hf => by
    obtain ⟨_, _, F, h1, _, h2⟩ := ht.entry f hf; exact ⟨F, h1, h2⟩
  obtain ⟨key, hkey⟩ := cacheKey_ok (g := s.w.g) hS' (fuel := a + 2) hS hF (by omega) sch
  have hplan : ∃ q, plan1 s.w.g t (a + 2) (f, sch) = some q ∧ q.1 = key := by
    unfold plan1
    simp only [hF, hkey]
    exact ⟨_, rfl, rfl⟩
  obtain ⟨q, hq, hqk⟩ := hplan
  have hforeign : Foreign s t (a + 2) (f, sch) ↔ ∃ k, s.by_.lookup key = some k ∧ s.e.runs k = none := by
    constructor
    · rintro ⟨q', hq', r⟩
      rw [hq] at hq'; cases hq'
      rw [hqk] at r; exact r
    · intro r
      exact ⟨q, hq, by rw [hqk]; exact r⟩
  have hcomp : Stale.runFunc t (a + 2) s (f, sch) = match s.by_.lookup key with
      | some k => (match s.e.runs k with
        | none => .error .typeError
        | some py => (Mat.runFunc (if py then s.b.asPython else s.b) t (a + 2) s.w (f, sch)).map fun w => { s with w := w })
      | none => (Mat.runFunc s.b t (a + 2) s.w (f, sch)).map fun w => { s with w := w, by_ := s.by_ ++ [(key, s.e)] } := by
    unfold Stale.runFunc
    simp only [hF, hkey, bind, Except.bind]
    cases s.by_.lookup key with
    | none => rfl
    | some k => cases s.e.runs k <;> rfl
  have hgpu : s.b.isGpu = s.e.gpu := by rw [hf.gpu]; rfl
  cases hl : s.by_.lookup key with
  | none =>
    obtain ⟨w', e', st, av⟩ := runFunc_ok hf.faithful h ht hS hF hsch hsz hav hnc hlog
    refine .inr ⟨(by rw [hforeign, hl]; rintro ⟨k, hk, _⟩; cases hk), { s with w := w', by_ := s.by_ ++ [(key, s.e)] }, ?_, ⟨rfl, rfl, st, ⟨?_, ?_⟩, _, rfl, by simp⟩, av⟩
    · rw [hcomp, hl, e']; rfl
    · rcases runFunc_cache e' hF hkey with ⟨hc, _⟩ | ⟨_, K, hc⟩
      · rw [← hg.keys] at hc
        exact absurd hc (lookup_none hl)
      · simp only [List.map_append, hg.keys, hc]; rfl
    · intro p hp
      rcases List.mem_append.1 hp with hp | hp
      · exact hg.ok p hp
      · rw [List.mem_singleton] at hp
        subst hp
        refine ⟨F, sch, by rw [← hgpu]; exact hsch, ?_, ?_⟩
        · unfold cacheKey at hkey
          obtain ⟨_, _, hk⟩ := except_bind_ok hkey
          cases hk; rfl
        · unfold cacheKey at hkey
          obtain ⟨_, _, hk⟩ := except_bind_ok hkey
          cases hk; rfl
  | some k =>
    cases hr : s.e.runs k with
    | none => exact .inl ⟨by rw [hforeign]; exact ⟨k, hl, hr⟩, by rw [hcomp, hl]; simp only [hr]⟩
    | some py =>
      have hnf : ¬ Foreign s t (a + 2) (f, sch) := by
        rw [hforeign, hl]; rintro ⟨k', hk, hr'⟩; cases hk; rw [hr] at hr'; cases hr'
      have hrun : ∃ w', Mat.runFunc (if py then s.b.asPython else s.b) t (a + 2) s.w (f, sch) = .ok w' ∧ Step s.b s.w w' ∧ Avail s.b w' f := by
        cases py with
        | false => exact runFunc_ok hf.faithful h ht hS hF hsch hsz hav hnc hlog
        | true =>
          have hcpu : s.b.isGpu = false := by
            rw [hgpu]
            cases he : s.e with
            | python => rfl
            | clang => rfl
            | cuda c => rw [he] at hr; cases k <;> simp [Engine.runs] at hr
          have hA : s.b.asPython.A = s.b.A := rfl
          have hG : s.b.asPython.isGpu = s.b.isGpu := rfl
          obtain ⟨w', e', st, av⟩ := runFunc_ok (asPython_faithful s.b hcpu) (h.switch hA) ht hS hF (by rw [hG]; exact hsch) (by rw [hG]; exact hsz)
            (fun d hd => (hav d hd).switch hG) hnc hlog
          exact ⟨w', e', st.switch hA.symm, av.switch hG.symm⟩
      obtain ⟨w', e', st, av⟩ := hrun
      refine .inr ⟨hnf, { s with w := w' }, by rw [hcomp, hl]; simp only [hr]; rw [e']; rfl, ⟨rfl, rfl, st, ⟨?_, hg.ok⟩, [], by simp, by simp⟩, av⟩
      rcases runFunc_cache e' hF hkey with ⟨_, hc⟩ | ⟨hc, _⟩
      · rw [hc]; exact hg.keys
      · rw [← hg.keys] at hc
        exact absurd (List.mem_map.2 ⟨_, mem_of_lookup hl, rfl⟩) hc

theorem runFuncsS_ok {t : Tbl} {a : Nat} {g : Graph V} {S : Nat → Prop} (ht : TblGood g t a S) :
    ∀ (ps : List (Nat × Schedule)) (done : List Nat) (s : Sess V), Fits s.e s.b → WInv s.b s.w → Tags s → s.w.g = g → NoCollision s.w.log →
    (∀ p ∈ ps, S p.1 ∧ ∃ F, t p.1 = some F ∧ Sched.schedule s.b.isGpu F = .ok p.2) →
    (s.b.isGpu = true → ∀ p ∈ ps, ∀ F, t p.1 = some F → ∀ i, (i = p.1 ∨ i ∈ Algo.funcRefs F.expr ∨ i ∈ Algo.bufRefs F.expr) → 0 < prod (g.shape i) ∧ (i = p.1 → g.ctx p.1 ≠ .const → GridOK (launchGrid (g.shape i)))) →
    (∀ p ∈ ps, ∀ q, plan1 g t (a + 2) p = some q → q ∈ s.w.log) →
    Ordered t (done ++ ps.map (·.1)) → (∀ d ∈ done, Avail s.b s.w d) →
    ((∃ p ∈ ps, Foreign s t (a + 2) p) ∧ ps.foldlM (Stale.runFunc t (a + 2)) s = .error .typeError) ∨
    ((∀ p ∈ ps, ¬ Foreign s t (a + 2) p) ∧ ∃ s', ps.foldlM (Stale.runFunc t (a + 2)) s = .ok s' ∧ SStep s s' ∧ ∀ p ∈ ps, Avail s.b s'.w p.1) := by
  intro ps
  induction ps with
  | nil => intro done s _ h hg _ _ _ _ _ _ _; exact .inr ⟨by simp, s, rfl, .refl h hg, by simp⟩
  | cons p ps ih =>
    intro done s hf h hT hg hnc hp hsz hlog ho hd
    obtain ⟨hS, F, hF, hs⟩ := hp p (by simp)
    subst hg
    rcases runFuncS_ok hf h hT ht hS hF hs (fun hgpu i hi => hsz hgpu p (by simp) F hF i hi)
      (fun d hd' => hd d (ho done p.1 (ps.map (·.1)) (by simp) F hF d hd')) hnc (fun q hq => hlog p (by simp) q hq) with ⟨hfo, e1⟩ | ⟨hnf, s1, e1, st1, a1⟩
    · exact .inl ⟨⟨p, by simp, hfo⟩, by rw [List.foldlM_cons, e1]; rfl⟩
    · have hb1 := st1.b
      have he1 := st1.e
      rcases ih (done ++ [p.1]) s1 (by rw [hb1, he1]; exact hf) (by rw [hb1]; exact st1.step.inv) st1.tags st1.step.g (by rw [st1.step.log]; exact hnc)
        (fun q hq => by rw [hb1]; exact hp q (by simp [hq]))
        (fun hgpu q hq => hsz (by rw [← hb1]; exact hgpu) q (by simp [hq])) (fun q hq r hr => by rw [st1.step.log]; exact hlog q (by simp [hq]) r hr)
        (by simpa using ho) (by
          intro d hd'
          rw [hb1]
          rcases List.mem_append.1 hd' with hd' | hd'
          · exact st1.step.avail (hd d hd')
          · simp only [List.mem_singleton] at hd'; rw [hd']; exact a1) with ⟨⟨q, hq, hfo⟩, e2⟩ | ⟨hnf2, s2, e2, st2, a2⟩
      · exact .inl ⟨⟨q, by simp [hq], st1.foreign.1 hfo⟩, by rw [List.foldlM_cons, e1]; exact e2⟩
      · refine .inr ⟨?_, s2, by rw [List.foldlM_cons, e1]; exact e2, st1.trans st2, ?_⟩
        · intro q hq
          rcases List.mem_cons.1 hq with rfl | hq
          · exact hnf
          · exact fun hfo => hnf2 q hq (st1.foreign.2 hfo)
        · intro q hq
          rcases List.mem_cons.1 hq with rfl | hq
          · have := st2.step
            rw [hb1] at this
            exact this.avail a1
          · have := a2 q hq
            rwa [hb1] at this

/-- The result of a `materialize` call that is not refused. -/
structure SRes (s s' : Sess V) (a : Nat) : Prop where
  e : s'.e = s.e
  b : s'.b = s.b
  res : MatRes s.b s.w s'.w a
  tags : Tags s'

theorem materializeS_nonview {s : Sess V} (hf : Fits s.e s.b) (h : WInv s.b s.w) (hT : Tags s) {a : Nat} (ha : a < s.w.g.length) (hv : (s.w.g.ctx a).op.isView = false)
    (hns : NoScalarReshape s.w.g a) (hnc : NoCollision (s.w.log ++ launchLog s.b.isGpu s.w.g a))
    (hsz : s.b.isGpu = true → KernelSizes s.w.g a) (fuel : Nat) :
    (HitsForeign s a ∧ Stale.materializeF (fuel + 1) s a = .error .typeError) ∨ (¬ HitsForeign s a ∧ ∃ s', Stale.materializeF (fuel + 1) s a = .ok s' ∧ SRes s s' a) := by
  have hbase : base s.w.g a = a := base_nonview hv
  by_cases hc : s.w.g.ctx a = .const
  · have hl : launchLog s.b.isGpu s.w.g a = [] := by unfold launchLog launchLogF; rw [hc]; rfl
    refine .inr ⟨by unfold HitsForeign; rw [hl]; simp, s, ?_, rfl, rfl, ⟨h, rfl, by rw [hl, List.append_nil], rfl, fun _ h => h, fun _ h => h, by rw [hbase]; exact Or.inl (avail_const (b := s.b) h.wf ha hc)⟩, hT⟩
    unfold Stale.materializeF; rw [hc]; rfl
  · have hcop : (s.w.g.ctx a).op.isConst = false := by
      cases hcc : s.w.g.ctx a <;> simp only [Ctx.op] <;> try decide
      · exact absurd hcc hc
      · have := h.wf a ha
        unfold NodeOK at this
        have hcc' : (s.w.g.nd a).ctx = _ := hcc
        rw [hcc'] at this
        exact unary_not_const this.2.1
      · have := h.wf a ha
        unfold NodeOK at this
        have hcc' : (s.w.g.nd a).ctx = _ := hcc
        rw [hcc'] at this
        exact binary_not_const this.2.2.1
    obtain ⟨funcs, t, e, hnd, ⟨pre, hpre⟩, hord, htg, hreach⟩ := convert_good h.wf ha hns hv hc
    obtain ⟨scheds, es, hl, hps⟩ := schedAll_ok (isGpu := s.b.isGpu) htg funcs (fun _ h => h)
    have hlog : launchLog s.b.isGpu s.w.g a = (funcs.zip scheds).filterMap (plan1 s.w.g t (a + 2)) := by
      unfold launchLog launchLogF
      simp only [hcop, hv, e, es]; rfl
    have hmap : (funcs.zip scheds).map (·.1) = funcs := by
      apply List.map_fst_zip; omega
    have hfor : HitsForeign s a ↔ ∃ p ∈ funcs.zip scheds, Foreign s t (a + 2) p := by
      unfold HitsForeign
      rw [hlog]
      constructor
      · rintro ⟨q, hq, k, hk, hr⟩
        obtain ⟨p, hp, hpq⟩ := List.mem_filterMap.1 hq
        exact ⟨p, hp, q, hpq, k, hk, refuses_iff.1 hr⟩
      · rintro ⟨p, hp, q, hpq, k, hk, hr⟩
        exact ⟨q, List.mem_filterMap.2 ⟨p, hp, hpq⟩, k, hk, refuses_iff.2 hr⟩
    have hcomp : Stale.materializeF (fuel + 1) s a = (funcs.zip scheds).foldlM (Stale.runFunc t (a + 2)) { s with w := { s.w with log := s.w.log ++ (funcs.zip scheds).filterMap (plan1 s.w.g t (a + 2)) } } := by
      unfold Stale.materializeF
      simp only [hcop, hv, e, es, bind, Except.bind]
      rfl
    rw [hcomp, hfor]
    rcases runFuncsS_ok htg (funcs.zip scheds) []
      { s with w := { s.w with log := s.w.log ++ (funcs.zip scheds).filterMap (plan1 s.w.g t (a + 2)) } } hf
      ⟨h.wf, h.nn, h.cpu, h.dev, fun k K hk => by
        obtain ⟨K0, n0, n, h1, h2⟩ := h.cache k K hk
        exact ⟨K0, n0, n, List.mem_append_left _ h1, h2⟩, h.ev⟩ ⟨hT.keys, hT.ok⟩ rfl (by rw [← hlog]; exact hnc)
      (fun p hp => ⟨by rw [← hmap]; exact List.mem_map_of_mem hp, hps p hp⟩)
      (fun hgpu p hp F hF i hi => hsz hgpu funcs t e p.1 (by rw [← hmap]; exact List.mem_map_of_mem hp) F hF i hi)
      (fun p hp q hq => List.mem_append_right _ (List.mem_filterMap.2 ⟨p, hp, hq⟩))
      (by rw [hmap]; exact hord) (by simp) with ⟨⟨p, hp, hfo⟩, e'⟩ | ⟨hnf, s', e', st, av⟩
    · exact .inl ⟨⟨p, hp, hfo⟩, e'⟩
    · refine .inr ⟨fun ⟨p, hp, hfo⟩ => hnf p hp hfo, s', e', st.e, st.b, ⟨st.step.inv, st.step.g, by rw [st.step.log, hlog], st.step.grad, st.step.cpuMono, st.step.devMono, ?_⟩, st.tags⟩
      rw [hbase]
      have : a ∈ (funcs.zip scheds).map (·.1) := by rw [hmap, hpre]; simp
      obtain ⟨p, hp, hpa⟩ := List.mem_map.1 this
      rw [← hpa]; exact av p hp

theorem materializeSF_base {s : Sess V} (h : WF s.w.g) {a : Nat} (ha : a < s.w.g.length) : ∀ fuel, a < fuel →
    ∃ fuel', Stale.materializeF fuel s a = Stale.materializeF (fuel' + 1) s (base s.w.g a) := by
  induction a using Nat.strongRecOn with
  | ind a ih =>
    intro fuel hf
    obtain ⟨fuel, rfl⟩ : ∃ k, fuel = k + 1 := ⟨fuel - 1, by omega⟩
    cases hv : (s.w.g.ctx a).op.isView with
    | false => rw [base_nonview hv]; exact ⟨fuel, rfl⟩
    | true =>
      obtain ⟨x, hx⟩ := view_input hv h ha
      have hlt := h.inputs_lt ha x (by rw [hx]; simp)
      obtain ⟨f', e⟩ := ih x hlt (by omega) fuel (by omega)
      refine ⟨f', ?_⟩
      rw [base_view h ha hv hx, ← e]
      conv => lhs; unfold Stale.materializeF
      simp only [view_not_const hv, hv, hx]
      rfl

theorem materializeS_ok {s : Sess V} (hf : Fits s.e s.b) (h : WInv s.b s.w) (hT : Tags s) {a : Nat} (ha : a < s.w.g.length) (hargs : ArgsOK s.b s.w (.materialize a)) :
    (HitsForeign s a ∧ Stale.materializeF (a + 1) s a = .error .typeError) ∨ (¬ HitsForeign s a ∧ ∃ s', Stale.materializeF (a + 1) s a = .ok s' ∧ SRes s s' a) := by
  obtain ⟨hns, hnc, hne⟩ := hargs
  have hb' := base_le h.wf ha
  obtain ⟨f', e⟩ := materializeSF_base h.wf ha (a + 1) (by omega)
  have hv := base_base h.wf ha
  have hll := launchLog_base (isGpu := s.b.isGpu) h.wf ha
  rw [hll] at hnc
  have hh : HitsForeign s a ↔ HitsForeign s (base s.w.g a) := by unfold HitsForeign; rw [hll]
  rw [e, hh]
  rcases materializeS_nonview hf h hT (a := base s.w.g a) (by omega) hv hns hnc (fun hg => kernelSizes_of h.wf ha hns (hne hg)) f' with h1 | ⟨h1, s', h2, h3⟩
  · exact .inl h1
  · refine .inr ⟨h1, s', h2, h3.e, h3.b, ⟨h3.res.inv, h3.res.g, by rw [hll]; exact h3.res.log, h3.res.grad, h3.res.cpuMono, h3.res.devMono, ?_⟩, h3.tags⟩
    have := h3.res.avail
    rwa [base_nonview hv] at this

/-- The invariant of sessions. -/
structure SInv (s : Sess V) : Prop where
  fits : Fits s.e s.b
  inv : InvG False s.b s.w
  tags : Tags s

theorem stepS_other {s : Sess V} {c : Call V} (hm : ∀ a, c ≠ .materialize a) (hr : c ≠ .reset) : Stale.step s c = (Hist.step s.b s.w c).map fun p => (p.1, { s with w := p.2 }) := by
  unfold Stale.step Hist.step
  split
  · cases c <;> first | rfl | exact absurd rfl (hm _) | exact absurd rfl hr
  · rfl

theorem nextS_other {s : Sess V} {c : Call V} (hm : ∀ a, c ≠ .materialize a) (hr : c ≠ .reset) : Stale.next s c = (Hist.next s.b s.w c).map fun w => { s with w := w } := by
  unfold Stale.next Hist.next
  rw [stepS_other hm hr]
  cases hs : Hist.step s.b s.w c with
  | ok p => rfl
  | error e =>
    simp only [Except.map]
    split <;> rfl

theorem stepS_materialize {s : Sess V} {a : Nat} (ha : a < s.w.g.length) : Stale.step s (.materialize a) = (Stale.materializeF (a + 1) s a).map fun s => (.unit, s) := by
  unfold Stale.step
  rw [if_pos (by simpa [Call.arrays] using ha)]; rfl

theorem stepS_tolist {s : Sess V} (a : Nat) : Stale.step s (.tolist a) = (Hist.step s.b s.w (.tolist a)).map fun p => (p.1, { s with w := p.2 }) :=
  stepS_other (fun _ h => by cases h) (fun h => by cases h)

theorem RunsS.later {s s' : Sess V} (h : SInv s) (hr : RunsS s s') : SInv s' ∧ s'.b.A = s.b.A ∧ LaterB s.w s'.w := by
  induction hr with
  | refl => exact ⟨h, rfl, .refl _, fun _ h => h⟩
  | @call s1 s' c _ hl hn ih =>
    obtain ⟨h1, h2, h3⟩ := ih
    by_cases hmat : ∃ a, c = .materialize a
    · obtain ⟨a, rfl⟩ := hmat
      have hs : ∃ o, Stale.step s1 (.materialize a) = .ok (o, s') := by
        unfold Stale.next at hn
        split at hn
        · rename_i o s2 hs; cases hn; exact ⟨o, hs⟩
        · cases hn
      obtain ⟨o, hs⟩ := hs
      have ha : a < s1.w.g.length := by
        unfold Stale.step at hs
        split at hs
        · rename_i hin; exact hin a (by simp [Call.arrays])
        · cases hs
      have hargs := hl.resolve_left (by rintro ⟨e, he⟩; rw [hs] at he; cases he)
      rw [stepS_materialize ha] at hs
      rcases materializeS_ok h1.fits h1.inv.winv h1.tags ha hargs with ⟨_, e⟩ | ⟨_, s2, e, r⟩
      · rw [e] at hs; cases hs
      · rw [e] at hs; cases hs
        have hgs : GradShapes s'.w := by
          intro i k hk
          rw [r.res.grad] at hk
          rw [r.res.g]; exact h1.inv.gs i k hk
        refine ⟨⟨by rw [r.e, r.b]; exact h1.fits, by rw [r.b]; exact ⟨r.res.inv, by rw [r.res.g]; exact h1.inv.nn, hgs, False.elim⟩, r.tags⟩, by rw [r.b, h2], ?_, fun i hi => r.res.cpuMono i (h3.cpuMono i hi)⟩
        · rw [r.res.g]; exact h3.ext
    · have hm : ∀ a, c ≠ .materialize a := fun a h => hmat ⟨a, h⟩
      by_cases hreset : c = .reset
      · subst hreset
        have : s' = { s1 with w := { s1.w with cache := [], hits := fun _ => 0, hist := [], log := [], epoch := s1.w.tick }, by_ := [] } := by
          unfold Stale.next Stale.step at hn
          rw [if_pos (by simp [Call.arrays])] at hn
          cases hn; rfl
        subst this
        obtain ⟨h5, h6⟩ := next_ok (c := .reset) h1.fits.faithful h1.inv (.inr trivial) rfl
        exact ⟨⟨h1.fits, h5, rfl, by simp⟩, h2, h3.ext.trans h6.ext, fun i hi => h6.cpuMono i (h3.cpuMono i hi)⟩
      · rw [nextS_other hm hreset] at hn
        obtain ⟨w', hw, rfl⟩ := Option.map_eq_some_iff.1 hn
        have hl' : Legal s1.b s1.w c := hl.imp_left fun ⟨e, he⟩ => by
          rw [stepS_other hm hreset] at he
          cases hs : Hist.step s1.b s1.w c with
          | ok p => rw [hs] at he; cases he
          | error e' => exact ⟨e', rfl⟩
        obtain ⟨h5, h6⟩ := next_ok h1.fits.faithful h1.inv hl' hw
        have hc : w'.cache = s1.w.cache := by
          unfold Hist.next at hw
          split at hw
          · rename_i o w2 hs
            cases hw
            unfold Hist.step at hs
            split at hs
            · exact exec1_cache hm hreset hs
            · cases hs
          · split at hw
            · cases hw; rfl
            · cases hw
        exact ⟨⟨h1.fits, h5, by show s1.by_.map _ = _; rw [hc]; exact h1.tags.keys, h1.tags.ok⟩, h2, h3.ext.trans h6.ext, fun i hi => h6.cpuMono i (h3.cpuMono i hi)⟩
  | @stopped s1 w' y _ hy ha hs ih =>
    obtain ⟨h1, h2, h3⟩ := ih
    obtain ⟨h5, h6⟩ := stopped_ok h1.inv hy ha hs
    have hc : w'.cache = s1.w.cache := by
      rw [((hs.bstep s1.b.A h1.inv.winv.wf h1.inv.nn h1.inv.gs hy ha).1).rest]
    exact ⟨⟨h1.fits, h5, by show s1.by_.map _ = _; rw [hc]; exact h1.tags.keys, h1.tags.ok⟩, h2, h3.ext.trans h6.ext, fun i hi => h6.cpuMono i (h3.cpuMono i hi)⟩
  | switch _ hf hA _ ih =>
    obtain ⟨h1, h2, h3⟩ := ih
    exact ⟨⟨hf, h1.inv.switch hA, h1.tags.keys, h1.tags.ok⟩, hA.trans h2, h3.ext, h3.cpuMono⟩

theorem ReachableS.inv {s : Sess V} (h : ReachableS s) : SInv s := by
  obtain ⟨e, b, hf, hr⟩ := h
  have h0 : Inv b Mat.init := .init b
  exact (hr.later (s := ⟨e, b, Mat.init, []⟩) ⟨hf, ⟨h0.winv, h0.nn, h0.gs, False.elim⟩, rfl, by simp⟩).1

/-- CPU and GPU schedules differ unless there are no output loops. -/
theorem splits_cpu {F : Func} {sch : Schedule} (h : Sched.schedule false F = .ok sch) : sch.splits = [] := by
  obtain ⟨sch', _, _, e, hs, _⟩ := cpu_loops (F := F)
  have : Sched.schedule false F = .ok sch' := by simpa [Sched.schedule] using e
  rw [h] at this; cases this; exact hs

theorem setExec_splits {s s' : Schedule} {lv : LoopVar} {e : LoopExec} (h : Sched.setExec s lv e = .ok s') : s'.splits = s.splits := by
  unfold Sched.setExec at h
  obtain ⟨i, _, h⟩ := except_bind_ok h
  cases h; rfl

theorem split_splits {s : Schedule} {lv : LoopVar} {k : Int} {x : (LoopVar × LoopVar) × Schedule} (h : Sched.split s lv k = .ok x) : x.2.splits ≠ [] := by
  unfold Sched.split at h
  split at h
  · cases h
  · obtain ⟨i, _, h⟩ := except_bind_ok h
    cases h; simp

theorem splits_gpu {F : Func} (hn : F.outLoops ≠ []) {sch : Schedule} (h : Sched.schedule true F = .ok sch) : sch.splits ≠ [] := by
  have h : Sched.gpu (Sched.init F) = .ok sch := h
  unfold Sched.gpu at h
  have hsp : Sched.spatials (Sched.init F) ≠ [] := by
    unfold Sched.spatials Sched.init
    cases hl : F.outLoops with
    | nil => exact absurd hl hn
    | cons l ls => simp
  split at h
  · rename_i he; exact absurd he hsp
  · obtain ⟨x, h1, h⟩ := except_bind_ok h
    obtain ⟨s1, h2, h⟩ := except_bind_ok h
    rw [setExec_splits h, setExec_splits h2]; exact split_splits h1
  · obtain ⟨x, h1, h⟩ := except_bind_ok h
    obtain ⟨s1, h2, h⟩ := except_bind_ok h
    obtain ⟨s2, h3, h⟩ := except_bind_ok h
    rw [setExec_splits h, setExec_splits h3, setExec_splits h2]; exact split_splits h1
  · obtain ⟨x, h1, h⟩ := except_bind_ok h
    obtain ⟨s1, h2, h⟩ := except_bind_ok h
    obtain ⟨s2, h3, h⟩ := except_bind_ok h
    obtain ⟨s3, h4, h⟩ := except_bind_ok h
    rw [setExec_splits h, setExec_splits h4, setExec_splits h3, setExec_splits h2]; exact split_splits h1
  · obtain ⟨x, h1, h⟩ := except_bind_ok h
    obtain ⟨s1, h2, h⟩ := except_bind_ok h
    rw [setExec_splits h, setExec_splits h2]; exact split_splits h1

/-- The keys that `materialize` looks up belong to arrays computed on the way. -/
theorem launchLog_entry {isGpu : Bool} {g : Graph V} (hw : WF g) {a : Nat} (ha : a < g.length) (hns : NoScalarReshape g (base g a)) {p : Key × Except Err (Kernel × Nat)}
    (hp : p ∈ launchLog isGpu g a) :
    ∃ f F sch, Reach g (base g a) f ∧ Sched.schedule isGpu F = .ok sch ∧ p.1.sched = skey sch ∧ (p.1.loops = F.outLoops.map fun l => (l.name, l.extent)) ∧ F.outLoops = Algo.outLoops g f := by
  rw [launchLog_base hw ha] at hp
  have hbl := Nat.lt_of_le_of_lt (base_le hw ha) ha
  have hv := base_base hw ha
  unfold launchLog launchLogF at hp
  split at hp
  · simp at hp
  · rename_i hcop
    rw [if_neg (by rw [hv]; simp)] at hp
    have hc : g.ctx (base g a) ≠ .const := by
      intro h; rw [h] at hcop; exact hcop rfl
    obtain ⟨funcs, t, e, hnd, _, hord, htg, hreach⟩ := convert_good hw hbl hns hv hc
    obtain ⟨scheds, es, hl, hps⟩ := schedAll_ok (isGpu := isGpu) htg funcs (fun _ h => h)
    simp only [e, es] at hp
    obtain ⟨q, hq, hpq⟩ := List.mem_filterMap.1 hp
    obtain ⟨F, hF, hs⟩ := hps q hq
    have hmap : (funcs.zip scheds).map (·.1) = funcs := by apply List.map_fst_zip; omega
    have hfm : q.1 ∈ funcs := by rw [← hmap]; exact List.mem_map_of_mem hq
    obtain ⟨_, _, F', hF', hE, _⟩ := htg.entry q.1 hfm
    rw [hF] at hF'; cases hF'
    unfold plan1 at hpq
    simp only [hF] at hpq
    split at hpq
    · rename_i key hk
      cases hpq
      unfold cacheKey at hk
      obtain ⟨_, _, hk⟩ := except_bind_ok hk
      cases hk
      exact ⟨q.1, F, q.2, hreach q.1 hfm, hs, rfl, rfl, hE.loops⟩
    · cases hpq

end Whale
