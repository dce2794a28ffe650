import Verif.Proofs.Ctypes
import Verif.Proofs.SourceElem
/-
For C70: `materialize` of a session with conversions.
-/
namespace Whale
open Mat Hist Kern Codegen
variable {H V : Type} {C : Marshal H V} {f : H → V} {R : Runtime V} {dt : DType}

/-- Everything array `a` is made from has elements of dtype `dt`. -/
def TypedArr (R : Runtime V) (dt : DType) (g : Graph V) (a : Nat) : Prop := ∀ i, Reach g a i → g.dtype i = dt ∧ ∀ v ∈ (den R.b.A g i).flatten, Sem.Elem R.L R.N dt v

theorem crunFunc_sim (hC : C.Suits f R dt) (hR : R.OK) {P : Prop} {w w' : World V} (h : WInv R.b w) (hw' : WInv R.b w') (hgw : w'.g = w.g) (hlw : w'.log = w.log) {funcs : List Nat} {t : Tbl} {a k : Nat} {S : Nat → Prop}
    (hconv : Algo.convert w.g a = .ok (funcs, t)) (hff : k ∈ funcs) (ht : TblGood w.g t a S) (hf : S k) {F : Func} (hF : t k = some F) {sch : Schedule}
    (hsch : Sched.schedule R.b.isGpu F = .ok sch) (hnc : NoCollision w.log) (hlog : ∀ q, plan1 w.g t (a + 2) (k, sch) = some q → q ∈ w.log)
    (hty : ∀ ins K, Generates R.b.isGpu w.g a k ins sch K → ∀ i, i = k ∨ i ∈ ins → w.g.dtype i = dt ∧ ∀ v ∈ (den R.b.A w.g i).flatten, Sem.Elem R.L R.N dt v)
    (hc : CallsOK P R w.g a) (hrun : Mat.runFunc R.b t (a + 2) w (k, sch) = .ok w') {s : CWorld H V} (hs : CMatches R f s w) :
    Sim P (Cty.runFunc R C t (a + 2) s (k, sch)) fun s' => CMatches R f s' w' := by
  obtain ⟨hfa, hfc, F', hF', hE, hrefs⟩ := ht.entry k hf
  rw [hF] at hF'; cases hF'
  have hsw : Cty.lower f s = w.plain := hs.same
  have hgr := lower_g hsw
  have hm := schedule_modes hR.lang hsch
  have hL := LvOK.schedule hsch
  unfold Mat.runFunc at hrun
  simp only [hF] at hrun
  obtain ⟨outs, houts, hrun⟩ := except_bind_ok hrun
  obtain ⟨key, hkey, hrun⟩ := except_bind_ok hrun
  have houts' : outs = (Algo.args F.expr).2 := by
    have : outBufs t (Algo.args F.expr).2 = .ok ((Algo.args F.expr).2.map id) := by
      apply mapM_ok
      intro d hd
      obtain ⟨_, _, D, hD, hED, _⟩ := ht.entry d (hrefs d (mem_dedup.1 hd)).1
      simp only [hD, pure, Except.pure, hED.buffer, id]
    rw [this, List.map_id] at houts
    cases houts; rfl
  have hkey' : cacheKey s.w.g t (a + 2) F sch = .ok key := by rw [cacheKey_rel hgr]; exact hkey
  have hins : ∀ i ∈ (Algo.args F.expr).1 ++ outs, i < w.g.length := by
    intro i hi
    rcases List.mem_append.1 hi with hi | hi
    · exact (RootWF.bufs hE.wf i (mem_dedup.1 hi)).1
    · rw [houts'] at hi
      obtain ⟨_, _, D, hD, hED, _⟩ := ht.entry i (hrefs i (mem_dedup.1 hi)).1
      exact hED.lt
  have hob : F.outBuffer = k := hE.buffer
  have hgen : ∀ {n n' K}, codegen w.g t F sch (argsOf F) n = .ok (K, n') → Generates R.b.isGpu w.g a k ((Algo.args F.expr).1 ++ outs) sch K := by
    intro n n' K hK
    exact ⟨funcs, t, F, n, n', hconv, hff, hF, by rw [houts'], hsch, hK⟩
  unfold Cty.runFunc
  simp only [hF]
  rw [lift_ok houts]
  simp only [bind, Except.bind]
  rw [lift_ok hkey']
  simp only
  rcases lookup_sim hs.texts key with ⟨e1, e2⟩ | ⟨K, text, e1, e2, hpar⟩
  · rw [e1] at hrun
    rw [e2]
    simp only
    simp only at hrun
    obtain ⟨⟨K, n⟩, hK, hrun⟩ := except_bind_ok hrun
    obtain ⟨w1, hinv, hrun⟩ := except_bind_ok hrun
    cases hrun
    have hw1 : WInv R.b w1 := ⟨hw'.wf, hw'.nn, hw'.cpu, hw'.dev, hw'.cache, hw'.ev⟩
    obtain ⟨text, hCg⟩ : ∃ text, Text.codegen R.L (Text.kernName (R.digest key)) w.g t F sch ⟨(Algo.args F.expr).1, (Algo.args F.expr).2⟩ w.tmp = .ok (text, n) :=
      ⟨_, Text.codegen_tree R.L _ hm hK⟩
    have hpar : Syntax.parse R.L text = some (K.program R.L (Text.kernName (R.digest key))) :=
      Props.C37_parse hR.lang (hR.hex key) ⟨funcs, t, F, sch, w.tmp, n, hconv, hff, hF, hsch, hCg, hK⟩
    have hC' : Text.codegen R.L (Text.kernName (R.digest key)) s.w.g t F sch ⟨(Algo.args F.expr).1, (Algo.args F.expr).2⟩ s.w.tmp = .ok (text, n) := by
      rw [textCodegen_rel hgr, lower_tmp hsw]; exact hCg
    rw [lift_ok hC']
    simp only
    have hwx : WInv R.b { w with tmp := n, cache := w.cache ++ [(key, K)], hits := fun k => if k = key then 0 else w.hits k } := by
      refine ⟨h.wf, h.nn, h.cpu, h.dev, ?_, h.ev⟩
      have hcf := (invoke_frame hinv)
      intro k0 K0 hk0
      have := hw1.cache k0 K0 (by rw [hcf.cache]; exact hk0)
      have hl1 : w1.log = w.log := hlw
      rw [hl1] at this
      exact this
    have := cinvoke_sim hC (s := { s with w := { s.w with tmp := n }, texts := s.texts ++ [(key, text)] }) hinv (by rw [hob]; exact hE.lt) hins hwx hw1 hgw (by
        unfold Cty.lower World.plain at hsw ⊢
        injection hsw with a1 a2 a3 a4 a5 a6 a7 a8 a9 a10 a11 a12
        simp only [a1, a2, a3, a4, a9, a10, a12]) hpar
      (by rw [hob]; exact hty _ _ (hgen hK))
      (by rw [hob]; intro tick o ho; exact hc k _ sch K (hgen hK) _ tick o ho)
    refine this.mono ?_
    rintro s' ⟨hl, htx⟩
    have hcache := (invoke_frame hinv).cache
    refine ⟨hl, ?_⟩
    rw [htx]
    show List.Forall₂ _ (s.texts ++ [(key, text)]) w1.cache
    rw [hcache]
    exact List.rel_append hs.texts (.cons ⟨rfl, hpar⟩ .nil)
  · rw [e1] at hrun
    rw [e2]
    simp only at hrun ⊢
    have hlog' : (key, codegen w.g t F sch (argsOf F) 0) ∈ w.log := by
      apply hlog
      simp only [plan1, hF, hkey]; rfl
    obtain ⟨K1, n1, n, hm1, rfl⟩ := h.cache key K (mem_of_lookup e1)
    have heq := hnc _ hm1 _ hlog' rfl
    simp only at heq
    have hKn : codegen w.g t F sch (argsOf F) (0 + n) = .ok (K1.shift n, n1 + n) := by
      rw [codegen_shift hL, ← heq]; rfl
    have := cinvoke_sim hC (s := s) hrun (by rw [hob]; exact hE.lt) hins ⟨h.wf, h.nn, h.cpu, h.dev, h.cache, h.ev⟩ hw' hgw hsw hpar
      (by rw [hob]; exact hty _ _ (hgen hKn))
      (by rw [hob]; intro tick o ho; exact hc k _ sch _ (hgen hKn) _ tick o ho)
    refine this.mono ?_
    rintro s' ⟨hl, htx⟩
    have hcache := (invoke_frame hrun).cache
    refine ⟨hl, ?_⟩
    rw [htx]
    show List.Forall₂ _ s.texts w'.cache
    rw [hcache]
    exact hs.texts

theorem crunFuncs_sim (hC : C.Suits f R dt) (hR : R.OK) (hb : Faithful R.b) {P : Prop} {t : Tbl} {a : Nat} {g : Graph V} {funcs : List Nat} (hconv : Algo.convert g a = .ok (funcs, t))
    (ht : TblGood g t a (· ∈ funcs)) (hc : CallsOK P R g a)
    (hty : ∀ k ins sch K, Generates R.b.isGpu g a k ins sch K → ∀ i, i = k ∨ i ∈ ins → g.dtype i = dt ∧ ∀ v ∈ (den R.b.A g i).flatten, Sem.Elem R.L R.N dt v) :
    ∀ (ps : List (Nat × Schedule)) (done : List Nat) (w : World V), WInv R.b w → w.g = g → NoCollision w.log →
    (∀ p ∈ ps, p.1 ∈ funcs ∧ ∃ F, t p.1 = some F ∧ Sched.schedule R.b.isGpu F = .ok p.2) →
    (R.b.isGpu = true → ∀ p ∈ ps, ∀ F, t p.1 = some F → ∀ i, (i = p.1 ∨ i ∈ Algo.funcRefs F.expr ∨ i ∈ Algo.bufRefs F.expr) → 0 < prod (g.shape i) ∧ (i = p.1 → g.ctx p.1 ≠ .const → GridOK (launchGrid (g.shape i)))) →
    (∀ p ∈ ps, ∀ q, plan1 g t (a + 2) p = some q → q ∈ w.log) →
    Ordered t (done ++ ps.map (·.1)) → (∀ d ∈ done, Avail R.b w d) → ∀ s : CWorld H V, CMatches R f s w →
    ∃ w', ps.foldlM (Mat.runFunc R.b t (a + 2)) w = .ok w' ∧ Sim P (ps.foldlM (Cty.runFunc R C t (a + 2)) s) fun s' => CMatches R f s' w' := by
  intro ps
  induction ps with
  | nil => intro done w h _ _ _ _ _ _ _ s hs; exact ⟨w, rfl, .inl ⟨s, rfl, hs⟩⟩
  | cons p ps ih =>
    intro done w h hg hnc hp hsz hlog ho hd s hs
    obtain ⟨hS, F, hF, hsc⟩ := hp p (by simp)
    subst hg
    obtain ⟨w1, e1, s1, a1⟩ := runFunc_ok hb h ht hS hF hsc (fun hgpu i hi => hsz hgpu p (by simp) F hF i hi)
      (fun d hd' => hd d (ho done p.1 (ps.map (·.1)) (by simp) F hF d hd')) hnc (fun q hq => hlog p (by simp) q hq)
    have hsim := crunFunc_sim hC hR h s1.inv s1.g s1.log hconv hS ht hS hF hsc hnc (fun q hq => hlog p (by simp) q hq) (fun ins K => hty p.1 ins p.2 K) hc e1 hs
    have hrest := ih (done ++ [p.1]) w1 s1.inv s1.g (by rw [s1.log]; exact hnc) (fun q hq => hp q (by simp [hq]))
      (fun hgpu q hq => hsz hgpu q (by simp [hq])) (fun q hq r hr => by rw [s1.log]; exact hlog q (by simp [hq]) r hr)
      (by simpa using ho) (by
        intro d hd'
        rcases List.mem_append.1 hd' with hd' | hd'
        · exact s1.avail (hd d hd')
        · simp only [List.mem_singleton] at hd'; rw [hd']; exact a1)
    rcases hsim with ⟨s2, e2, m2⟩ | ⟨e2, hP⟩
    · obtain ⟨w2, e3, hs2⟩ := hrest s2 m2
      refine ⟨w2, by rw [List.foldlM_cons, e1]; exact e3, ?_⟩
      rw [List.foldlM_cons, e2]; exact hs2
    · obtain ⟨w2, e3, _⟩ := runFuncs_ok hb ht ps (done ++ [p.1]) w1 s1.inv s1.g (by rw [s1.log]; exact hnc) (fun q hq => hp q (by simp [hq]))
        (fun hgpu q hq => hsz hgpu q (by simp [hq])) (fun q hq r hr => by rw [s1.log]; exact hlog q (by simp [hq]) r hr)
        (by simpa using ho) (by
          intro d hd'
          rcases List.mem_append.1 hd' with hd' | hd'
          · exact s1.avail (hd d hd')
          · simp only [List.mem_singleton] at hd'; rw [hd']; exact a1)
      refine ⟨w2, by rw [List.foldlM_cons, e1]; exact e3, ?_⟩
      rw [List.foldlM_cons, e2]; exact .inr ⟨rfl, hP⟩

theorem cmaterialize_sim (hC : C.Suits f R dt) (hR : R.OK) (hb : Faithful R.b) {P : Prop} {w : World V} (h : WInv R.b w) {a : Nat} (ha : a < w.g.length)
    (hns : NoScalarReshape w.g (base w.g a)) (hnc : NoCollision (w.log ++ launchLog R.b.isGpu w.g a)) (hsz : R.b.isGpu = true → KernelSizes w.g (base w.g a))
    (hc : Computed w.g (base w.g a) → CallsOK P R w.g (base w.g a))
    (hty : Computed w.g (base w.g a) → ∀ k ins sch K, Generates R.b.isGpu w.g (base w.g a) k ins sch K → ∀ i, i = k ∨ i ∈ ins → w.g.dtype i = dt ∧ ∀ v ∈ (den R.b.A w.g i).flatten, Sem.Elem R.L R.N dt v)
    {s : CWorld H V} (hs : CMatches R f s w) :
    ∃ w', Mat.materialize R.b w a = .ok w' ∧ Sim P (Cty.materialize R C s a) fun s' => CMatches R f s' w' := by
  have hbl : base w.g a < w.g.length := Nat.lt_of_le_of_lt (base_le h.wf ha) ha
  have hv := base_base h.wf ha
  obtain ⟨f', e⟩ := materializeF_base (b := R.b) h.wf ha (a + 1) (by omega)
  have hsw : Cty.lower f s = w.plain := hs.same
  have hgr := lower_g hsw
  have hctx : s.w.g.ctx = w.g.ctx := hgr.ctx
  have e' : ∀ (a : Nat), a < w.g.length → ∀ fuel, a < fuel → ∃ fuel', Cty.materializeF R C fuel s a = Cty.materializeF R C (fuel' + 1) s (base w.g a) := by
    intro a
    induction a using Nat.strongRecOn with
    | ind a ih =>
      intro ha fuel hf
      obtain ⟨fuel, rfl⟩ : ∃ k, fuel = k + 1 := ⟨fuel - 1, by omega⟩
      cases hv : (w.g.ctx a).op.isView with
      | false => rw [base_nonview hv]; exact ⟨fuel, rfl⟩
      | true =>
        obtain ⟨x, hx⟩ := view_input hv h.wf ha
        have hlt := h.wf.inputs_lt ha x (by rw [hx]; simp)
        obtain ⟨f', e⟩ := ih x hlt (by omega) fuel (by omega)
        refine ⟨f', ?_⟩
        rw [base_view h.wf ha hv hx, ← e]
        conv => lhs; unfold Cty.materializeF
        simp only [hctx, view_not_const hv, hv, hx]; rfl
  obtain ⟨f2, e2⟩ := e' a ha (a + 1) (by omega)
  unfold Mat.materialize Cty.materialize
  rw [e, e2]
  by_cases hcc : w.g.ctx (base w.g a) = .const
  · have hop : (w.g.ctx (base w.g a)).op.isConst = true := by rw [hcc]; rfl
    refine ⟨w, ?_, .inl ⟨s, ?_, hs⟩⟩
    · unfold Mat.materializeF; rw [if_pos hop]; rfl
    · unfold Cty.materializeF; rw [hctx, if_pos hop]
  · have hcop : (w.g.ctx (base w.g a)).op.isConst = false := by
      cases hop : (w.g.ctx (base w.g a)).op.isConst with
      | false => rfl
      | true =>
        exfalso
        have hn := h.wf (base w.g a) hbl
        unfold NodeOK at hn
        have hx : (w.g.nd (base w.g a)).ctx = w.g.ctx (base w.g a) := rfl
        rw [hx] at hn
        cases hk : w.g.ctx (base w.g a) <;> rw [hk] at hop hn <;> simp only [Ctx.op] at hop <;> try exact absurd hop (by decide)
        · exact hcc hk
        · rw [unary_not_const hn.2.1] at hop; cases hop
        · rw [binary_not_const hn.2.2.1] at hop; cases hop
    rw [launchLog_base h.wf ha] at hnc
    generalize base w.g a = x at *
    obtain ⟨funcs, t, ec, hnd, ⟨pre, hpre⟩, hord, htg, hreach⟩ := convert_good h.wf hbl hns hv hcc
    obtain ⟨scheds, es, hl, hps⟩ := schedAll_ok (isGpu := R.b.isGpu) htg funcs (fun _ h => h)
    have hlog : launchLog R.b.isGpu w.g x = (funcs.zip scheds).filterMap (plan1 w.g t (x + 2)) := by
      unfold launchLog launchLogF
      simp only [hcop, hv, ec, es]; rfl
    have hmap : (funcs.zip scheds).map (·.1) = funcs := by
      apply List.map_fst_zip; omega
    have hplan : plan1 s.w.g t (x + 2) = plan1 w.g t (x + 2) := funext fun p => plan1_rel hgr t _ p
    obtain ⟨w', ew, hsim⟩ := crunFuncs_sim hC hR hb (P := P) ec htg (hc ⟨hbl, hv, hcc⟩) (hty ⟨hbl, hv, hcc⟩) (funcs.zip scheds) []
      { w with log := w.log ++ (funcs.zip scheds).filterMap (plan1 w.g t (x + 2)) }
      ⟨h.wf, h.nn, h.cpu, h.dev, fun k K hk => by
        obtain ⟨K0, n0, n, h1, h2⟩ := h.cache k K hk
        exact ⟨K0, n0, n, List.mem_append_left _ h1, h2⟩, h.ev⟩ rfl (by rw [← hlog]; exact hnc)
      (fun p hp => ⟨by rw [← hmap]; exact List.mem_map_of_mem hp, hps p hp⟩)
      (fun hgpu p hp F hF i hi => hsz hgpu funcs t ec p.1 (by rw [← hmap]; exact List.mem_map_of_mem hp) F hF i hi)
      (fun p hp q hq => List.mem_append_right _ (List.mem_filterMap.2 ⟨p, hp, hq⟩))
      (by rw [hmap]; exact hord) (by simp) { s with w := { s.w with log := s.w.log ++ (funcs.zip scheds).filterMap (plan1 s.w.g t (x + 2)) } }
      ⟨by
        rw [hplan]
        unfold Cty.lower World.plain at hsw
        unfold Cty.lower
        injection hsw with a1 a2 a3 a4 a5 a6 a7 a8 a9 a10 a11 a12
        simp only [a1, a2, a3, a4, a8, a9, a10, a12], hs.texts⟩
    refine ⟨w', ?_, ?_⟩
    · unfold Mat.materializeF
      simp only [hcop, hv, ec, es, bind, Except.bind]
      exact ew
    · have ec' : Src.lift (Algo.convert s.w.g x) = .ok (funcs, t) := lift_ok (by rw [convert_rel hgr]; exact ec)
      have es' : Src.lift (schedAll R.b.isGpu t funcs) = .ok scheds := lift_ok es
      unfold Cty.materializeF
      rw [hctx, hcop, hv]
      simp only [Bool.false_eq_true, if_false]
      rw [ec']
      simp only [bind, Except.bind]
      rw [es']
      exact hsim

/-! ### `tolist` -/

theorem fetch_map (d : List H) (k : Int) : ND.fetch (d.map f) k = (ND.fetch d k).map f := by
  unfold ND.fetch
  simp only [List.length_map, List.getElem?_map]
  split
  · cases d[k.toNat]? <;> rfl
  · rfl

end Whale
