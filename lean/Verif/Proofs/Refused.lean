import Verif.Spec.Refused
import Verif.Proofs.Stale
import Verif.Proofs.Crash
/-
Sessions on CPU backends in which the kernel cache survives `backend.reset`, and `materialize` may raise anywhere.
-/
namespace Whale
open Mat Hist
variable {V : Type}

theorem DirtyOK.switch {b b' : Backend V} (hA : b'.A = b.A) {D : List Nat} {w : World V} (h : DirtyOK b D w) : DirtyOK b' D w :=
  ⟨h.lt, h.nonconst, by rw [hA]; exact h.part, h.nodev⟩

theorem StepX.switch {b b' : Backend V} (hA : b'.A = b.A) {D D' : List Nat} {w w' : World V} (h : StepX b D w D' w') : StepX b' D w D' w' :=
  ⟨h.inv.switch hA, h.dirty.switch hA, h.g, h.log, h.grad, h.mono⟩

theorem InvX.switch {b b' : Backend V} (hA : b'.A = b.A) {D : List Nat} {w : World V} (h : InvX b D w) : InvX b' D w := ⟨h.inv.switch hA, h.dirty.switch hA⟩

/-- What a sequence of kernel runs does to the session. -/
structure SStepX (s : Sess V) (D : List Nat) (s' : Sess V) (D' : List Nat) : Prop where
  e : s'.e = s.e
  b : s'.b = s.b
  step : StepX s.b D s.w D' s'.w
  tags : Tags s'
  by_ : ∃ l, s'.by_ = s.by_ ++ l ∧ ∀ x ∈ l, x.2 = s.e

theorem SStepX.refl {s : Sess V} {D : List Nat} (h : WInv s.b (s.w.clean D)) (hd : DirtyOK s.b D s.w) (ht : Tags s) : SStepX s D s D :=
  ⟨rfl, rfl, ⟨h, hd, rfl, rfl, rfl, fun _ h => h⟩, ht, [], by simp, by simp⟩

theorem SStepX.trans {s s' s'' : Sess V} {D D' D'' : List Nat} (h : SStepX s D s' D') (k : SStepX s' D' s'' D'') : SStepX s D s'' D'' := by
  obtain ⟨l1, e1, h1⟩ := h.by_
  obtain ⟨l2, e2, h2⟩ := k.by_
  have ks := k.step
  rw [h.b] at ks
  refine ⟨k.e.trans h.e, k.b.trans h.b, ⟨ks.inv, ks.dirty, ks.g.trans h.step.g, ks.log.trans h.step.log, ks.grad.trans h.step.grad, fun i hi => ks.mono i (h.step.mono i hi)⟩, k.tags, l1 ++ l2,
    by rw [e2, e1, List.append_assoc], fun x hx => ?_⟩
  rcases List.mem_append.1 hx with hx | hx
  · exact h1 x hx
  · rw [h2 x hx, h.e]

theorem SStepX.foreign {s s' : Sess V} {D D' : List Nat} (h : SStepX s D s' D') {t : Tbl} {fuel : Nat} {p : Nat × Schedule} : Foreign s' t fuel p ↔ Foreign s t fuel p := by
  obtain ⟨l, e, hl⟩ := h.by_
  unfold Foreign
  rw [h.step.g, h.e, e]
  constructor
  · rintro ⟨q, hq, k, hk, hr⟩
    refine ⟨q, hq, k, ?_, hr⟩
    rw [List.lookup_append] at hk
    cases hs : s.by_.lookup q.1 with
    | some k' => rw [hs] at hk; exact hk
    | none =>
      rw [hs, Option.none_or] at hk
      have := hl _ (mem_of_lookup hk)
      simp only at this
      rw [this, runs_self] at hr; cases hr
  · rintro ⟨q, hq, k, hk, hr⟩
    exact ⟨q, hq, k, lookup_append_of_some hk, hr⟩

/-- A new kernel is tagged with the executor it was compiled for. -/
theorem tagOK_new {s : Sess V} (hgpu : s.b.isGpu = s.e.gpu) {t : Tbl} {fuel : Nat} {F : Func} {sch : Schedule} (hsch : Sched.schedule s.b.isGpu F = .ok sch) {key : Key}
    (hkey : cacheKey s.w.g t fuel F sch = .ok key) : TagOK (key, s.e) := by
  refine ⟨F, sch, by rw [← hgpu]; exact hsch, ?_, ?_⟩
  · unfold cacheKey at hkey
    obtain ⟨_, _, hk⟩ := except_bind_ok hkey
    cases hk; rfl
  · unfold cacheKey at hkey
    obtain ⟨_, _, hk⟩ := except_bind_ok hkey
    cases hk; rfl

theorem runFuncS_comp {s : Sess V} {t : Tbl} {fuel f : Nat} {F : Func} {sch : Schedule} (hF : t f = some F) {key : Key} (hkey : cacheKey s.w.g t fuel F sch = .ok key) :
    Stale.runFunc t fuel s (f, sch) = match s.by_.lookup key with
      | some k => (match s.e.runs k with
        | none => .error .typeError
        | some py => (Mat.runFunc (if py then s.b.asPython else s.b) t fuel s.w (f, sch)).map fun w => { s with w := w })
      | none => (Mat.runFunc s.b t fuel s.w (f, sch)).map fun w => { s with w := w, by_ := s.by_ ++ [(key, s.e)] } := by
  unfold Stale.runFunc
  simp only [hF, hkey, bind, Except.bind]
  cases s.by_.lookup key with
  | none => rfl
  | some k => cases s.e.runs k <;> rfl

theorem foreign_iff {s : Sess V} {t : Tbl} {fuel f : Nat} {F : Func} {sch : Schedule} (hF : t f = some F) {key : Key} (hkey : cacheKey s.w.g t fuel F sch = .ok key) :
    Foreign s t fuel (f, sch) ↔ ∃ k, s.by_.lookup key = some k ∧ s.e.runs k = none := by
  have hplan : ∃ q, plan1 s.w.g t fuel (f, sch) = some q ∧ q.1 = key := by
    unfold plan1
    simp only [hF, hkey]
    exact ⟨_, rfl, rfl⟩
  obtain ⟨q, hq, hqk⟩ := hplan
  constructor
  · rintro ⟨q', hq', r⟩
    rw [hq] at hq'; cases hq'
    rw [hqk] at r; exact r
  · intro r
    exact ⟨q, hq, by rw [hqk]; exact r⟩

/-- One function, completely run or refused. -/
theorem runFuncS_dirty {s : Sess V} {D : List Nat} (hf : Fits s.e s.b) (hg : s.b.isGpu = false) (h : WInv s.b (s.w.clean D)) (hd : DirtyOK s.b D s.w) (hT : Tags s) {t : Tbl} {a f : Nat} {S : Nat → Prop}
    (ht : TblGood s.w.g t a S) (hS : S f) {F : Func} (hF : t f = some F) {sch : Schedule} (hsch : Sched.schedule s.b.isGpu F = .ok sch)
    (hav : ∀ d ∈ Algo.funcRefs F.expr, (cpuBuf (s.w.clean D) d).isSome) (hnc : NoCollision s.w.log)
    (hlog : ∀ q, plan1 s.w.g t (a + 2) (f, sch) = some q → q ∈ s.w.log) :
    (Foreign s t (a + 2) (f, sch) ∧ Stale.runFunc t (a + 2) s (f, sch) = .error .typeError) ∨
    (¬ Foreign s t (a + 2) (f, sch) ∧ ∃ s', Stale.runFunc t (a + 2) s (f, sch) = .ok s' ∧ SStepX s D s' (D.filter (· ≠ f)) ∧ (s'.w.cpu f).isSome) := by
  obtain ⟨key, K0, n0, X⟩ := func_facts (g := s.w.g) hf.faithful h.wf h.nn ht hS hF hsch hlog
  have hkey := X.hkey
  have hgpu : s.b.isGpu = s.e.gpu := by rw [hf.gpu]; rfl
  rw [runFuncS_comp hF hkey, foreign_iff hF hkey]
  cases hl : s.by_.lookup key with
  | none =>
    obtain ⟨w', e', st, av⟩ := runFunc_dirty hf.faithful hg h hd ht hS hF hsch hav hnc hlog
    refine .inr ⟨(by rintro ⟨k, hk, _⟩; cases hk), { s with w := w', by_ := s.by_ ++ [(key, s.e)] }, by simp only [e']; rfl, ⟨rfl, rfl, st, ⟨?_, ?_⟩, _, rfl, by simp⟩, av⟩
    · rcases runFunc_cache e' hF hkey with ⟨hc, _⟩ | ⟨_, K, hc⟩
      · rw [← hT.keys] at hc
        exact absurd hc (lookup_none hl)
      · simp only [List.map_append, hT.keys, hc]; rfl
    · intro p hp
      rcases List.mem_append.1 hp with hp | hp
      · exact hT.ok p hp
      · rw [List.mem_singleton] at hp
        subst hp
        exact tagOK_new hgpu hsch hkey
  | some k =>
    cases hr : s.e.runs k with
    | none => exact .inl ⟨⟨k, rfl, hr⟩, by simp only [hr]⟩
    | some py =>
      have hrun : ∃ w', Mat.runFunc (if py then s.b.asPython else s.b) t (a + 2) s.w (f, sch) = .ok w' ∧ StepX s.b D s.w (D.filter (· ≠ f)) w' ∧ (w'.cpu f).isSome := by
        cases py with
        | false => exact runFunc_dirty hf.faithful hg h hd ht hS hF hsch hav hnc hlog
        | true =>
          have hA : s.b.asPython.A = s.b.A := rfl
          obtain ⟨w', e', st, av⟩ := runFunc_dirty (asPython_faithful s.b hg) hg (h.switch hA) (hd.switch hA) ht hS hF hsch hav hnc hlog
          exact ⟨w', e', st.switch hA.symm, av⟩
      obtain ⟨w', e', st, av⟩ := hrun
      refine .inr ⟨(by rintro ⟨k', hk, hr'⟩; cases hk; rw [hr] at hr'; cases hr'), { s with w := w' }, by simp only [hr, e']; rfl, ⟨rfl, rfl, st, ⟨?_, hT.ok⟩, [], by simp, by simp⟩, av⟩
      rcases runFunc_cache e' hF hkey with ⟨_, hc⟩ | ⟨hc, _⟩
      · rw [hc]; exact hT.keys
      · rw [← hT.keys] at hc
        exact absurd (List.mem_map.2 ⟨_, mem_of_lookup hl, rfl⟩) hc

theorem invokePart_cache {b : Backend V} {w w' : World V} {sch : Schedule} {K : Kernel} {out : Nat} {ins : List Nat} (hg : b.isGpu = false) (h : InvokePart b w sch K out ins w') : w'.cache = w.cache := by
  have hf : ∀ (l : List Nat) (w : World V), (l.foldl (fillCpu b.A) w).cache = w.cache := by
    intro l
    induction l with
    | nil => intro w; rfl
    | cons i l ih =>
      intro w
      rw [List.foldl_cons, ih]
      unfold fillCpu; split <;> rfl
  cases h with
  | filling k _ => exact hf _ _
  | running _ e _ _ _ _ => subst e; exact hf _ _
  | copying k hg' _ => rw [hg] at hg'; cases hg'
  | allocating k hg' _ _ _ => rw [hg] at hg'; cases hg'
  | launched hg' _ _ _ _ _ => rw [hg] at hg'; cases hg'

theorem runPart_cache {b : Backend V} {t : Tbl} {fuel : Nat} {w w' : World V} {p : Nat × Schedule} {d : Option Nat} (hg : b.isGpu = false) (h : RunPart b t fuel w p d w') {F : Func} (hF : t p.1 = some F)
    {key : Key} (hk : cacheKey w.g t fuel F p.2 = .ok key) :
    (d = none ∧ w'.cache = w.cache) ∨ (key ∈ w.cache.map (·.1) ∧ w'.cache = w.cache) ∨ (key ∉ w.cache.map (·.1) ∧ ∃ K, w'.cache = w.cache ++ [(key, K)]) := by
  cases h with
  | before n => exact .inl ⟨rfl, rfl⟩
  | hit hF' ho hk' hl hi =>
    rw [hF] at hF'; cases hF'
    rw [hk] at hk'; cases hk'
    exact .inr (.inl ⟨List.mem_map.2 ⟨_, mem_of_lookup hl, rfl⟩, (by have := invokePart_cache hg hi; exact this)⟩)
  | miss hF' ho hk' hl hc hi =>
    rw [hF] at hF'; cases hF'
    rw [hk] at hk'; cases hk'
    exact .inr (.inr ⟨lookup_none hl, _, (by have := invokePart_cache hg hi; exact this)⟩)

/-- One function, left by an exception. -/
theorem partS_dirty {s s' : Sess V} {D : List Nat} (hf : Fits s.e s.b) (hg : s.b.isGpu = false) (h : WInv s.b (s.w.clean D)) (hd : DirtyOK s.b D s.w) (hT : Tags s) {t : Tbl} {a f : Nat} {S : Nat → Prop}
    (ht : TblGood s.w.g t a S) (hS : S f) {F : Func} (hF : t f = some F) {sch : Schedule} (hsch : Sched.schedule s.b.isGpu F = .ok sch)
    (hav : ∀ d ∈ Algo.funcRefs F.expr, (cpuBuf (s.w.clean D) d).isSome) (hnc : NoCollision s.w.log)
    (hlog : ∀ q, plan1 s.w.g t (a + 2) (f, sch) = some q → q ∈ s.w.log) {d : Option Nat} (hp : Stale.Part t (a + 2) s (f, sch) d s') :
    SStepX s D s' (spoiled s.w D d) ∧ ∀ x ∈ d, x = f := by
  obtain ⟨key, K0, n0, X⟩ := func_facts (g := s.w.g) hf.faithful h.wf h.nn ht hS hF hsch hlog
  have hgpu : s.b.isGpu = s.e.gpu := by rw [hf.gpu]; rfl
  cases hp with
  | before n =>
    exact ⟨⟨rfl, rfl, ⟨⟨h.wf, h.nn, h.cpu, h.dev, h.cache, h.ev⟩, ⟨hd.lt, hd.nonconst, hd.part, hd.nodev⟩, rfl, rfl, rfl, fun _ h => h⟩, ⟨hT.keys, hT.ok⟩, [], by simp, by simp⟩, by simp⟩
  | @cached F' key' k py d w' hF' hk hl hr hrun =>
    simp only [hF, Option.some.injEq] at hF'
    subst hF'
    rw [X.hkey] at hk; cases hk
    have hst : StepX s.b D s.w (spoiled s.w D d) w' ∧ ∀ x ∈ d, x = f := by
      cases py with
      | false => exact runPart_dirty hf.faithful hg h hd ht hS hF hsch hav hnc hlog hrun
      | true =>
        have hA : s.b.asPython.A = s.b.A := rfl
        obtain ⟨st, hx⟩ := runPart_dirty (b := s.b.asPython) (asPython_faithful s.b hg) hg (h.switch hA) (hd.switch hA) ht hS hF hsch hav hnc hlog hrun
        exact ⟨st.switch hA.symm, hx⟩
    refine ⟨⟨rfl, rfl, hst.1, ⟨?_, hT.ok⟩, [], by simp, by simp⟩, hst.2⟩
    have hg' : (if py then s.b.asPython else s.b).isGpu = false := by cases py <;> exact hg
    show s.by_.map (·.1) = w'.cache.map (·.1)
    rcases runPart_cache hg' hrun hF X.hkey with ⟨_, hc⟩ | ⟨_, hc⟩ | ⟨hc, _⟩
    · rw [hc]; exact hT.keys
    · rw [hc]; exact hT.keys
    · rw [← hT.keys] at hc
      exact absurd (List.mem_map.2 ⟨_, mem_of_lookup hl, rfl⟩) hc
  | @compiled F' key' f' w' hF' hk hl hrun =>
    simp only [hF, Option.some.injEq] at hF'
    subst hF'
    rw [X.hkey] at hk; cases hk
    obtain ⟨st, hx⟩ := runPart_dirty hf.faithful hg h hd ht hS hF hsch hav hnc hlog hrun
    refine ⟨⟨rfl, rfl, st, ⟨?_, ?_⟩, _, rfl, by simp⟩, hx⟩
    · show (s.by_ ++ [(key, s.e)]).map (·.1) = w'.cache.map (·.1)
      rcases runPart_cache hg hrun hF X.hkey with ⟨hd0, _⟩ | ⟨hc, _⟩ | ⟨_, K, hc⟩
      · cases hd0
      · rw [← hT.keys] at hc
        exact absurd hc (lookup_none hl)
      · simp only [List.map_append, hT.keys, hc]; rfl
    · intro p hp
      rcases List.mem_append.1 hp with hp | hp
      · exact hT.ok p hp
      · rw [List.mem_singleton] at hp
        subst hp
        exact tagOK_new hgpu hsch X.hkey
  | @refused F' outs key' k hF' ho hk hl hr =>
    simp only [hF, Option.some.injEq] at hF'
    subst hF'
    rw [X.outs] at ho; cases ho
    rw [X.hkey] at hk; cases hk
    have hin : ∀ i ∈ (Algo.args F.expr).1 ++ (Algo.args F.expr).2, i < s.w.g.length ∧ (cpuBuf (s.w.clean D) i).isSome := by
      intro i hi
      rcases List.mem_append.1 hi with hi | hi
      · exact ⟨(X.bufs i hi).1, avail_const (b := s.b) (w := s.w.clean D) h.wf (X.bufs i hi).1 (X.bufs i hi).2⟩
      · exact ⟨(X.fncs i hi).1, hav i (X.fncs i hi).2⟩
    have hw1 : WInv s.b (({ s.w with hits := fun k => if k = key then s.w.hits k + 1 else s.w.hits k } : World V).clean D) := ⟨h.wf, h.nn, h.cpu, h.dev, h.cache, h.ev⟩
    have hpart : InvokePart s.b ({ s.w with hits := fun k => if k = key then s.w.hits k + 1 else s.w.hits k } : World V) sch (K0.shift 0) F.outBuffer ((Algo.args F.expr).1 ++ (Algo.args F.expr).2)
        (Stale.filled s.b.A s.w key F.outBuffer ((Algo.args F.expr).1 ++ (Algo.args F.expr).2)) := by
      have := InvokePart.filling (b := s.b) (w := ({ s.w with hits := fun k => if k = key then s.w.hits k + 1 else s.w.hits k } : World V)) (sch := sch) (K := K0.shift 0) (out := F.outBuffer)
        (ins := (Algo.args F.expr).1 ++ (Algo.args F.expr).2) (F.outBuffer :: ((Algo.args F.expr).1 ++ (Algo.args F.expr).2)).length hg
      rw [List.take_length] at this
      exact this
    have hcache := invokePart_cache hg hpart
    rw [X.buffer] at hpart hcache ⊢
    have hst := invokePart_dirty hw1 ⟨hd.lt, hd.nonconst, hd.part, hd.nodev⟩ hg X.lt X.nonconst X.notIn hin (X.run 0 _) hpart
    refine ⟨⟨rfl, rfl, ⟨hst.inv, hst.dirty, hst.g, hst.log, hst.grad, hst.mono⟩, ⟨?_, hT.ok⟩, [], by simp, by simp⟩, by simp⟩
    show s.by_.map (·.1) = (Stale.filled s.b.A s.w key f _).cache.map (·.1)
    rw [hcache]; exact hT.keys

/-- Several functions: one of them is refused, or all are completely run. -/
theorem runFuncsS_dirty {t : Tbl} {a : Nat} {g : Graph V} {S : Nat → Prop} (ht : TblGood g t a S) :
    ∀ (ps : List (Nat × Schedule)) (done rest D : List Nat) (s : Sess V), Fits s.e s.b → s.b.isGpu = false → WInv s.b (s.w.clean D) → DirtyOK s.b D s.w → Tags s → s.w.g = g → NoCollision s.w.log →
    (∀ p ∈ ps, S p.1 ∧ ∃ F, t p.1 = some F ∧ Sched.schedule s.b.isGpu F = .ok p.2) →
    (∀ p ∈ ps, ∀ q, plan1 g t (a + 2) p = some q → q ∈ s.w.log) →
    Ordered t (done ++ ps.map (·.1) ++ rest) → (∀ d ∈ done, (cpuBuf (s.w.clean D) d).isSome) →
    ((∃ p ∈ ps, Foreign s t (a + 2) p) ∧ ps.foldlM (Stale.runFunc t (a + 2)) s = .error .typeError ∧ (Stale.leftLoop t (a + 2) s ps).isSome) ∨
    ((∀ p ∈ ps, ¬ Foreign s t (a + 2) p) ∧ ∃ s' D', ps.foldlM (Stale.runFunc t (a + 2)) s = .ok s' ∧ SStepX s D s' D' ∧ (∀ i, i ∈ D' → i ∈ D) ∧ (∀ p ∈ ps, p.1 ∉ D') ∧
      (∀ d ∈ done ++ ps.map (·.1), (cpuBuf (s'.w.clean D') d).isSome)) := by
  intro ps
  induction ps with
  | nil =>
    intro done rest D s _ _ h hd hT _ _ _ _ _ hdn
    exact .inr ⟨by simp, s, D, rfl, .refl h hd hT, fun _ h => h, by simp, by simpa using hdn⟩
  | cons p ps ih =>
    intro done rest D s hf hg h hd hT hgr hnc hp hlog ho hdn
    obtain ⟨hS, F, hF, hs⟩ := hp p (by simp)
    subst hgr
    have hav : ∀ d ∈ Algo.funcRefs F.expr, (cpuBuf (s.w.clean D) d).isSome := fun d hd' => hdn d (ho done p.1 (ps.map (·.1) ++ rest) (by simp) F hF d hd')
    rcases runFuncS_dirty hf hg h hd hT ht hS hF hs hav hnc (fun q hq => hlog p (by simp) q hq) with ⟨hfo, e1⟩ | ⟨hnf, s1, e1, s1x, a1⟩
    · refine .inl ⟨⟨p, by simp, hfo⟩, by rw [List.foldlM_cons, e1]; rfl, ?_⟩
      obtain ⟨key, K0, n0, X⟩ := func_facts (g := s.w.g) hf.faithful h.wf h.nn ht hS hF hs (fun q hq => hlog p (by simp) q hq)
      obtain ⟨k, hk, hr⟩ := (foreign_iff hF X.hkey).1 hfo
      unfold Stale.leftLoop
      simp only [e1, hF, X.outs, X.hkey, hk, hr]
      rfl
    · have hb1 := s1x.b
      have he1 := s1x.e
      have hpD : p.1 ∉ D.filter (· ≠ p.1) := fun hm => (mem_without.1 hm).2 rfl
      rcases ih (done ++ [p.1]) rest (D.filter (· ≠ p.1)) s1 (by rw [hb1, he1]; exact hf) (by rw [hb1]; exact hg) (by rw [hb1]; exact s1x.step.inv) (by rw [hb1]; exact s1x.step.dirty) s1x.tags
        s1x.step.g (by rw [s1x.step.log]; exact hnc) (fun q hq => by rw [hb1]; exact hp q (by simp [hq]))
        (fun q hq r hr => by rw [s1x.step.log]; exact hlog q (by simp [hq]) r hr)
        (by simpa using ho) (by
          intro d hd'
          rcases List.mem_append.1 hd' with hd' | hd'
          · have h1 := hdn d hd'
            exact cpuBuf_monoX s1x.step hd h.wf (fun hm => hd.notMem h.wf h1 (mem_without.1 hm).1) h1
          · simp only [List.mem_singleton] at hd'
            rw [hd', cpuBuf_clean hpD]
            unfold cpuBuf
            obtain ⟨l, hl⟩ := Option.isSome_iff_exists.1 a1
            rw [hl]; rfl) with ⟨⟨q, hq, hfo⟩, e2, hl2⟩ | ⟨hnf2, s2, D2, e2, s2x, sub2, n2, a2⟩
      · refine .inl ⟨⟨q, by simp [hq], s1x.foreign.1 hfo⟩, by rw [List.foldlM_cons, e1]; exact e2, ?_⟩
        unfold Stale.leftLoop
        simp only [e1]; exact hl2
      · refine .inr ⟨?_, s2, D2, by rw [List.foldlM_cons, e1]; exact e2, s1x.trans s2x, fun i hi => (mem_without.1 (sub2 i hi)).1, ?_, by simpa using a2⟩
        · intro q hq
          rcases List.mem_cons.1 hq with rfl | hq
          · exact hnf
          · exact fun hfo => hnf2 q hq (s1x.foreign.2 hfo)
        · intro q hq
          rcases List.mem_cons.1 hq with rfl | hq
          · exact fun hm => hpD (sub2 _ hm)
          · exact n2 q hq

/-- Where the loop is left is one of the places where it may be left. -/
theorem leftLoop_part {t : Tbl} {fuel : Nat} : ∀ {ps : List (Nat × Schedule)} {s s' : Sess V} {f : Nat}, Stale.leftLoop t fuel s ps = some (f, s') →
    ∃ pre p post s1, ps = pre ++ p :: post ∧ pre.foldlM (Stale.runFunc t fuel) s = .ok s1 ∧ Stale.Part t fuel s1 p (some f) s' := by
  intro ps
  induction ps with
  | nil => intro s s' f h; cases h
  | cons p ps ih =>
    intro s s' f h
    unfold Stale.leftLoop at h
    split at h
    · rename_i s1 e1
      obtain ⟨pre, q, post, s2, e2, h2, h3⟩ := ih h
      exact ⟨p :: pre, q, post, s2, by rw [e2]; rfl, by rw [List.foldlM_cons, e1]; exact h2, h3⟩
    · split at h
      · cases h
      · rename_i F hF
        split at h
        · rename_i outs key ho hk
          split at h
          · rename_i k hl
            split at h
            · rename_i hr
              cases h
              exact ⟨[], p, ps, s, rfl, rfl, .refused hF ho hk hl hr⟩
            · cases h
          · cases h
        · cases h

/-- What a completed `materialize` does to a session. -/
structure SMatX (s : Sess V) (D : List Nat) (s' : Sess V) (a : Nat) : Prop where
  e : s'.e = s.e
  b : s'.b = s.b
  mat : MatX s.b D s.w s'.w a
  tags : Tags s'

theorem materializeS_nonviewX {s : Sess V} {D : List Nat} (hf : Fits s.e s.b) (hg : s.b.isGpu = false) (h : WInv s.b (s.w.clean D)) (hd : DirtyOK s.b D s.w) (hT : Tags s) {a : Nat} (ha : a < s.w.g.length)
    (hv : (s.w.g.ctx a).op.isView = false) (hns : NoScalarReshape s.w.g a) (hnc : NoCollision (s.w.log ++ launchLog s.b.isGpu s.w.g a)) (fuel : Nat) :
    (HitsForeign s a ∧ Stale.materializeF (fuel + 1) s a = .error .typeError ∧ ∃ f s', Stale.left (fuel + 1) s a = some (f, s') ∧ Stale.Interrupted s a (some f) s') ∨
    (¬ HitsForeign s a ∧ ∃ s', Stale.materializeF (fuel + 1) s a = .ok s' ∧ SMatX s D s' a) := by
  have hwf : WF s.w.g := h.wf
  have hbase : base s.w.g a = a := base_nonview hv
  by_cases hc : s.w.g.ctx a = .const
  · have hl : launchLog s.b.isGpu s.w.g a = [] := by unfold launchLog launchLogF; rw [hc]; rfl
    have hD : D.filter (· ≠ base s.w.g a) = D := by
      rw [List.filter_eq_self]
      intro i hi
      rw [hbase]
      simp only [ne_eq, decide_eq_true_eq]
      rintro rfl
      exact hd.nonconst _ hi hc
    refine .inr ⟨by unfold HitsForeign; rw [hl]; simp, s, ?_, rfl, rfl, ?_, hT⟩
    · unfold Stale.materializeF; rw [hc]; rfl
    · refine ⟨by rw [hD]; exact h, by rw [hD]; exact hd, rfl, rfl, fun _ h => h, ?_⟩
      rw [hbase]
      exact avail_const (b := s.b) (w := s.w.clean _) hwf ha hc
  · have hcop := isConst_false hwf ha hc
    obtain ⟨funcs, t, e, hnd, ⟨pre, hpre⟩, hord, htg, hreach⟩ := convert_good hwf ha hns hv hc
    obtain ⟨scheds, es, hl, hps⟩ := schedAll_ok (isGpu := s.b.isGpu) htg funcs (fun _ h => h)
    have hlog := launchLog_nonview (isGpu := s.b.isGpu) hcop hv e es
    have hmap : (funcs.zip scheds).map (·.1) = funcs := by
      apply List.map_fst_zip; omega
    have hfor : HitsForeign s a ↔ ∃ p ∈ funcs.zip scheds, Foreign s t (a + 2) p := by
      unfold HitsForeign
      rw [hlog]
      constructor
      · rintro ⟨q, hq, k, hk, hr⟩
        obtain ⟨p, hp, hpq⟩ := List.mem_filterMap.1 hq
        exact ⟨p, hp, q, hpq, k, hk, refuses_iff.1 hr⟩
      · rintro ⟨p, hp, q, hpq, k, hk, hr⟩
        exact ⟨q, List.mem_filterMap.2 ⟨p, hp, hpq⟩, k, hk, refuses_iff.2 hr⟩
    have hcomp : Stale.materializeF (fuel + 1) s a = (funcs.zip scheds).foldlM (Stale.runFunc t (a + 2)) { s with w := { s.w with log := s.w.log ++ (funcs.zip scheds).filterMap (plan1 s.w.g t (a + 2)) } } := by
      unfold Stale.materializeF
      simp only [hcop, hv, e, es, bind, Except.bind]
      rfl
    have hleft : Stale.left (fuel + 1) s a = Stale.leftLoop t (a + 2) { s with w := { s.w with log := s.w.log ++ (funcs.zip scheds).filterMap (plan1 s.w.g t (a + 2)) } } (funcs.zip scheds) := by
      unfold Stale.left
      simp only [hcop, hv, e, es]
      rfl
    rw [hcomp, hfor, hleft]
    rcases runFuncsS_dirty htg (funcs.zip scheds) [] [] D
      { s with w := { s.w with log := s.w.log ++ (funcs.zip scheds).filterMap (plan1 s.w.g t (a + 2)) } } hf hg
      ⟨hwf, h.nn, h.cpu, h.dev, fun k K hk => by
        obtain ⟨K0, n0, n, h1, h2⟩ := h.cache k K hk
        exact ⟨K0, n0, n, List.mem_append_left _ h1, h2⟩, h.ev⟩ ⟨hd.lt, hd.nonconst, hd.part, hd.nodev⟩ ⟨hT.keys, hT.ok⟩ rfl (by rw [← hlog]; exact hnc)
      (fun p hp => ⟨by rw [← hmap]; exact List.mem_map_of_mem hp, hps p hp⟩)
      (fun p hp q hq => List.mem_append_right _ (List.mem_filterMap.2 ⟨p, hp, hq⟩))
      (by rw [hmap]; simpa using hord) (by simp) with ⟨⟨p, hp, hfo⟩, e', hl'⟩ | ⟨hnf, s', D', e', st, hsub, hnot, av⟩
    · obtain ⟨⟨f, s'⟩, hl'⟩ := Option.isSome_iff_exists.1 hl'
      obtain ⟨pre', p', post', s1, hz, hrun, hpart⟩ := leftLoop_part hl'
      exact .inl ⟨⟨p, hp, hfo⟩, e', f, s', hl', .kernel hcop hv e es hz hrun hpart⟩
    · have haf : a ∈ (funcs.zip scheds).map (·.1) := by rw [hmap, hpre]; simp
      have haD : a ∉ D' := by
        obtain ⟨p, hp, hpa⟩ := List.mem_map.1 haf
        rw [← hpa]; exact hnot p hp
      have hsub' : ∀ i, i ∈ D' → i ∈ D.filter (· ≠ base s.w.g a) := fun i hi => mem_without.2 ⟨hsub i hi, by rw [hbase]; rintro rfl; exact haD hi⟩
      refine .inr ⟨fun ⟨p, hp, hfo⟩ => hnf p hp hfo, s', e', st.e, st.b, ⟨st.step.inv.mask st.step.dirty.nodev hsub', DirtyOK.mask st.step.inv st.step.dirty (fun i hi => ?_) (fun i hi => ?_), st.step.g,
        st.step.grad, st.step.mono, ?_⟩, st.tags⟩
      · rw [st.step.g]; exact hd.lt i (mem_without.1 hi).1
      · rw [st.step.g]; exact hd.nonconst i (mem_without.1 hi).1
      · have := av a (by simpa using haf)
        rw [hbase, cpuBuf_clean (fun hm => (mem_without.1 hm).2 rfl)]
        rwa [cpuBuf_clean haD] at this

/-- The recursion over views, for both functions. -/
theorem viewsS_base {s : Sess V} (h : WF s.w.g) {a : Nat} (ha : a < s.w.g.length) : ∀ fuel, a < fuel →
    ∃ fuel', Stale.materializeF fuel s a = Stale.materializeF (fuel' + 1) s (base s.w.g a) ∧ Stale.left fuel s a = Stale.left (fuel' + 1) s (base s.w.g a) ∧
      ∀ d s', Stale.Interrupted s (base s.w.g a) d s' → Stale.Interrupted s a d s' := by
  induction a using Nat.strongRecOn with
  | ind a ih =>
    intro fuel hf
    obtain ⟨fuel, rfl⟩ : ∃ k, fuel = k + 1 := ⟨fuel - 1, by omega⟩
    cases hv : (s.w.g.ctx a).op.isView with
    | false => rw [base_nonview hv]; exact ⟨fuel, rfl, rfl, fun _ _ h => h⟩
    | true =>
      obtain ⟨x, hx⟩ := view_input hv h ha
      have hlt := h.inputs_lt ha x (by rw [hx]; simp)
      obtain ⟨f', e, el, hi⟩ := ih x hlt (by omega) fuel (by omega)
      refine ⟨f', ?_, ?_, ?_⟩
      · rw [base_view h ha hv hx, ← e]
        conv => lhs; unfold Stale.materializeF
        simp only [view_not_const hv, hv, hx]
        rfl
      · rw [base_view h ha hv hx, ← el]
        conv => lhs; unfold Stale.left
        simp only [view_not_const hv, hv, hx]
        rfl
      · rw [base_view h ha hv hx]
        exact fun d s' hd => .view (view_not_const hv) hv hx (hi d s' hd)

theorem materializeSX {s : Sess V} {D : List Nat} (hf : Fits s.e s.b) (hg : s.b.isGpu = false) (h : WInv s.b (s.w.clean D)) (hd : DirtyOK s.b D s.w) (hT : Tags s) {a : Nat} (ha : a < s.w.g.length)
    (hns : NoScalarReshape s.w.g (base s.w.g a)) (hnc : NoCollision (s.w.log ++ launchLog s.b.isGpu s.w.g a)) :
    (HitsForeign s a ∧ Stale.materializeF (a + 1) s a = .error .typeError ∧ ∃ f s', Stale.left (a + 1) s a = some (f, s') ∧ Stale.Interrupted s a (some f) s') ∨
    (¬ HitsForeign s a ∧ ∃ s', Stale.materializeF (a + 1) s a = .ok s' ∧ SMatX s D s' a) := by
  have hwf : WF s.w.g := h.wf
  have hb' := base_le hwf ha
  obtain ⟨f', e, el, hi⟩ := viewsS_base hwf ha (a + 1) (by omega)
  have hv := base_base hwf ha
  have hll := launchLog_base (isGpu := s.b.isGpu) hwf ha
  rw [hll] at hnc
  have hh : HitsForeign s a ↔ HitsForeign s (base s.w.g a) := by unfold HitsForeign; rw [hll]
  have hbb : base s.w.g (base s.w.g a) = base s.w.g a := base_nonview hv
  rw [e, el, hh]
  rcases materializeS_nonviewX hf hg h hd hT (a := base s.w.g a) (by omega) hv hns hnc f' with ⟨h1, h2, f, s', h3, h4⟩ | ⟨h1, s', h2, h3⟩
  · exact .inl ⟨h1, h2, f, s', h3, hi _ _ h4⟩
  · refine .inr ⟨h1, s', h2, h3.e, h3.b, ⟨?_, ?_, h3.mat.g, h3.mat.grad, h3.mat.mono, ?_⟩, h3.tags⟩
    · have := h3.mat.inv; rwa [hbb] at this
    · have := h3.mat.dirty; rwa [hbb] at this
    · have := h3.mat.avail; rwa [hbb] at this

/-- What an interrupted `materialize` does to a session. -/
structure SIntX (s : Sess V) (D : List Nat) (d : Option Nat) (s' : Sess V) : Prop where
  e : s'.e = s.e
  b : s'.b = s.b
  int : IntX s.b D s.w d s'.w
  tags : Tags s'

theorem interruptedSX {s : Sess V} {D : List Nat} (hf : Fits s.e s.b) (hg : s.b.isGpu = false) (h : WInv s.b (s.w.clean D)) (hd : DirtyOK s.b D s.w) (hT : Tags s) {a : Nat} {d : Option Nat} {s' : Sess V}
    (hi : Stale.Interrupted s a d s') : a < s.w.g.length → NoScalarReshape s.w.g (base s.w.g a) → NoCollision (s.w.log ++ launchLog s.b.isGpu s.w.g a) → SIntX s D d s' := by
  have hwf : WF s.w.g := h.wf
  induction hi with
  | early => intro _ _ _; exact ⟨rfl, rfl, ⟨h, hd, rfl, rfl, fun _ h => h⟩, hT⟩
  | @view a x rest d s' hc hv hx _ ih =>
    intro ha hns hnc
    obtain ⟨x', hx'⟩ := view_input hv hwf ha
    rw [hx'] at hx; cases hx
    have hlt := hwf.inputs_lt ha x (by rw [hx']; simp)
    rw [base_view hwf ha hv hx'] at hns
    rw [launchLog_base hwf ha, base_view hwf ha hv hx', ← launchLog_base hwf (by omega)] at hnc
    exact ih (by omega) hns hnc
  | kernel hc hv e es hz hpre hpart =>
    intro ha hns hnc
    rename_i a d funcs t scheds pre post p s1 s'
    have hbase : base s.w.g a = a := base_nonview hv
    rw [hbase] at hns
    have hnot : s.w.g.ctx a ≠ .const := by intro hcc; rw [hcc] at hc; cases hc
    obtain ⟨funcs', t', e', hnd, _, hord, htg, hreach⟩ := convert_good hwf ha hns hv hnot
    rw [e] at e'; cases e'
    obtain ⟨scheds', es', hl, hps⟩ := schedAll_ok (isGpu := s.b.isGpu) htg funcs (fun _ h => h)
    rw [es] at es'; cases es'
    have hlog := launchLog_nonview (isGpu := s.b.isGpu) hc hv e es
    have hmap : (funcs.zip scheds).map (·.1) = funcs := by
      apply List.map_fst_zip; omega
    have hmem : ∀ q ∈ pre ++ p :: post, q ∈ funcs.zip scheds := fun q hq => by rw [hz]; exact hq
    have hgood : ∀ q ∈ pre ++ p :: post, q.1 ∈ funcs ∧ ∃ F, t q.1 = some F ∧ Sched.schedule s.b.isGpu F = .ok q.2 :=
      fun q hq => ⟨by rw [← hmap]; exact List.mem_map_of_mem (hmem q hq), hps q (hmem q hq)⟩
    rcases runFuncsS_dirty htg pre [] (p.1 :: post.map (·.1)) D
      { s with w := { s.w with log := s.w.log ++ (funcs.zip scheds).filterMap (plan1 s.w.g t (a + 2)) } } hf hg
      ⟨hwf, h.nn, h.cpu, h.dev, fun k K hk => by
        obtain ⟨K0, n0, n, h1, h2⟩ := h.cache k K hk
        exact ⟨K0, n0, n, List.mem_append_left _ h1, h2⟩, h.ev⟩ ⟨hd.lt, hd.nonconst, hd.part, hd.nodev⟩ ⟨hT.keys, hT.ok⟩ rfl (by rw [← hlog]; exact hnc)
      (fun q hq => hgood q (by simp [hq]))
      (fun q hq r hr => List.mem_append_right _ (List.mem_filterMap.2 ⟨q, hmem q (by simp [hq]), hr⟩))
      (by rw [← hmap, hz] at hord; simpa using hord) (by simp) with ⟨_, e1, _⟩ | ⟨_, s1', D1, e1, x1, hsub, hnotD, av⟩
    · rw [hpre] at e1; cases e1
    rw [hpre] at e1; cases e1
    obtain ⟨hpf, F, hF, hsch⟩ := hgood p (by simp)
    have hgg : s1.w.g = s.w.g := x1.step.g
    have hb1 : s1.b = s.b := x1.b
    have he1 : s1.e = s.e := x1.e
    obtain ⟨x2, hdp⟩ := partS_dirty (a := a) (S := (· ∈ funcs)) (s := s1) (D := D1) (by rw [he1, hb1]; exact hf) (by rw [hb1]; exact hg) (by rw [hb1]; exact x1.step.inv) (by rw [hb1]; exact x1.step.dirty) x1.tags
      (by rw [hgg]; exact htg) hpf hF (by rw [hb1]; exact hsch)
      (fun d hd' => av d (by
        have := hord (pre.map (·.1)) p.1 (post.map (·.1)) (by rw [← hmap, hz]; simp) F hF d hd'
        simpa using this)) (by rw [x1.step.log]; rw [← hlog]; exact hnc)
      (fun q hq => by
        rw [hgg] at hq
        rw [x1.step.log]
        exact List.mem_append_right _ (List.mem_filterMap.2 ⟨p, hmem p (by simp), hq⟩)) (d := d) (s' := s') hpart
    have s2 := x2.step
    rw [hb1] at s2
    have hsub2 := spoiled_sub (b := s.b) (D := D) (w := s.w) hgg x1.step.mono hsub d
    have hfl : p.1 < s.w.g.length ∧ s.w.g.ctx p.1 ≠ .const := by
      obtain ⟨_, h1, F', h2, h3, _⟩ := htg.entry p.1 hpf
      exact ⟨h3.lt, h1⟩
    refine ⟨x2.e.trans he1, x2.b.trans hb1, ⟨s2.inv.mask s2.dirty.nodev hsub2, DirtyOK.mask s2.inv s2.dirty (fun i hi => ?_) (fun i hi => ?_), s2.g.trans hgg, s2.grad.trans x1.step.grad,
      fun i hs => s2.mono i (x1.step.mono i hs)⟩, x2.tags⟩
    · rw [s2.g, hgg]
      rcases mem_spoiled hi with hi | hi
      · rw [hdp i (by rw [hi]; rfl)]; exact hfl.1
      · exact hd.lt i hi
    · rw [s2.g, hgg]
      rcases mem_spoiled hi with hi | hi
      · rw [hdp i (by rw [hi]; rfl)]; exact hfl.2
      · exact hd.nonconst i hi

/-! ### histories -/

/-- The invariant of sessions on CPU backends. -/
structure RInv (s : Sess V) (D : List Nat) : Prop where
  fits : Fits s.e s.b
  cpu : s.b.isGpu = false
  inv : InvX s.b D s.w
  tags : Tags s

theorem stepS_inv {s : Sess V} {a : Nat} {o : Out V} {s' : Sess V} (hs : Stale.step s (.materialize a) = .ok (o, s')) : a < s.w.g.length := by
  unfold Stale.step at hs
  split at hs
  · rename_i hin; exact hin a (by simp [Call.arrays])
  · cases hs

theorem invX_of {b : Backend V} {D D' : List Nat} {w w' : World V} (h : InvX b D w) (hi : WInv b (w'.clean D')) (hd : DirtyOK b D' w') (hg : w'.g = w.g) (hgr : w'.grad = w.grad) : InvX b D' w' := by
  refine ⟨⟨hi, ?_, ?_, False.elim⟩, hd⟩
  · have : NN w'.g := by rw [hg]; exact h.inv.nn
    exact this
  · intro i k hk
    have hk' : w'.grad i = some k := hk
    rw [hgr] at hk'
    have := h.inv.gs i k hk'
    show i < w'.g.length ∧ k < w'.g.length ∧ w'.g.shape k = w'.g.shape i
    rw [hg]; exact this

theorem RunsR.later {s s' : Sess V} {D D' : List Nat} (h : RInv s D) (hr : RunsR s D s' D') : RInv s' D' ∧ s'.b.A = s.b.A ∧ LaterX s.w s'.w := by
  induction hr with
  | refl => exact ⟨h, rfl, .refl _⟩
  | @call s1 s' D1 c _ hl hn ih =>
    obtain ⟨h1, h2, h3⟩ := ih
    by_cases hmat : ∃ a, c = .materialize a
    · obtain ⟨a, rfl⟩ := hmat
      have hs : ∃ o, Stale.step s1 (.materialize a) = .ok (o, s') := by
        unfold Stale.next at hn
        split at hn
        · rename_i o s2 hs; cases hn; exact ⟨o, hs⟩
        · cases hn
      obtain ⟨o, hs⟩ := hs
      have ha := stepS_inv hs
      have hargs := hl.resolve_left (by rintro ⟨e, he⟩; rw [hs] at he; cases he)
      rw [stepS_materialize ha] at hs
      rcases materializeSX h1.fits h1.cpu h1.inv.inv.winv h1.inv.dirty h1.tags ha hargs.1 hargs.2.1 with ⟨_, e, _⟩ | ⟨_, s2, e, r⟩
      · rw [e] at hs; cases hs
      · rw [e] at hs; cases hs
        have hm := r.mat
        refine ⟨⟨by rw [r.e, r.b]; exact h1.fits, by rw [r.b]; exact h1.cpu, by rw [r.b]; exact invX_of h1.inv hm.inv hm.dirty hm.g hm.grad, r.tags⟩, by rw [r.b, h2],
          h3.trans ⟨by rw [hm.g]; exact .refl _, hm.mono⟩⟩
    · have hm : ∀ a, c ≠ .materialize a := fun a h => hmat ⟨a, h⟩
      by_cases hreset : c = .reset
      · subst hreset
        have : s' = { s1 with w := { s1.w with cache := [], hits := fun _ => 0, hist := [], log := [], epoch := s1.w.tick }, by_ := [] } := by
          unfold Stale.next Stale.step at hn
          rw [if_pos (by simp [Call.arrays])] at hn
          cases hn; rfl
        subst this
        obtain ⟨h5, h6⟩ := next_okX (c := .reset) h1.fits.faithful h1.cpu h1.inv (.inr trivial) rfl
        exact ⟨⟨h1.fits, h1.cpu, h5, rfl, by simp⟩, h2, h3.trans h6⟩
      · rw [nextS_other hm hreset] at hn
        obtain ⟨w', hw, rfl⟩ := Option.map_eq_some_iff.1 hn
        have hl' : Legal s1.b s1.w c := hl.imp_left fun ⟨e, he⟩ => by
          rw [stepS_other hm hreset] at he
          cases hs : Hist.step s1.b s1.w c with
          | ok p => rw [hs] at he; cases he
          | error e' => exact ⟨e', rfl⟩
        obtain ⟨h5, h6⟩ := next_okX h1.fits.faithful h1.cpu h1.inv hl' hw
        have hc : w'.cache = s1.w.cache := by
          unfold Hist.next at hw
          split at hw
          · rename_i o w2 hs
            cases hw
            unfold Hist.step at hs
            split at hs
            · exact exec1_cache hm hreset hs
            · cases hs
          · split at hw
            · cases hw; rfl
            · cases hw
        exact ⟨⟨h1.fits, h1.cpu, h5, by show s1.by_.map _ = _; rw [hc]; exact h1.tags.keys, h1.tags.ok⟩, h2, h3.trans h6⟩
  | @stopped s1 D1 w' y _ hy ha hs ih =>
    obtain ⟨h1, h2, h3⟩ := ih
    obtain ⟨h5, h6⟩ := stopped_okX h1.inv hy ha hs
    have hc : w'.cache = s1.w.cache := by
      have hwf : WF s1.w.g := h1.inv.inv.winv.wf
      have hgs : GradShapes s1.w := h1.inv.inv.gs
      rw [((hs.bstep s1.b.A hwf h1.inv.inv.nn hgs hy ha).1).rest]
    exact ⟨⟨h1.fits, h1.cpu, h5, by show s1.by_.map _ = _; rw [hc]; exact h1.tags.keys, h1.tags.ok⟩, h2, h3.trans h6⟩
  | @crash s1 s' D1 a d _ ha hargs hi ih =>
    obtain ⟨h1, h2, h3⟩ := ih
    have r := interruptedSX h1.fits h1.cpu h1.inv.inv.winv h1.inv.dirty h1.tags hi ha hargs.1 hargs.2.1
    have hm := r.int
    exact ⟨⟨by rw [r.e, r.b]; exact h1.fits, by rw [r.b]; exact h1.cpu, by rw [r.b]; exact invX_of h1.inv hm.inv hm.dirty hm.g hm.grad, r.tags⟩, by rw [r.b, h2],
      h3.trans ⟨by rw [hm.g]; exact .refl _, hm.mono⟩⟩
  | switch _ hf hg hA ih =>
    obtain ⟨h1, h2, h3⟩ := ih
    exact ⟨⟨hf, hg, h1.inv.switch hA, h1.tags.keys, h1.tags.ok⟩, hA.trans h2, h3⟩

theorem ReachableR.inv {s : Sess V} {D : List Nat} (h : ReachableR s D) : RInv s D := by
  obtain ⟨e, b, hf, hg, hr⟩ := h
  exact (hr.later (s := ⟨e, b, Mat.init, []⟩) ⟨hf, hg, .init b, rfl, by simp⟩).1

end Whale
