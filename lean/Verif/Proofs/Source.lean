import Verif.Proofs.SourceFrame
import Verif.Props.Semantics
/-
For C64: sessions at the level of source text follow sessions at the level of statement trees.
-/
namespace Whale
open Mat Hist Kern Codegen
variable {V : Type}

/-- A run that either returns with `Q` or stops with a number operation without a result, and that only if `P`. -/
def Sim {α : Type} (P : Prop) (x : Except SErr α) (Q : α → Prop) : Prop := (∃ r, x = .ok r ∧ Q r) ∨ (x = .error (.fault .arith) ∧ P)

theorem Sim.mono {α : Type} {P : Prop} {x : Except SErr α} {Q Q' : α → Prop} (h : Sim P x Q) (hq : ∀ r, Q r → Q' r) : Sim P x Q' :=
  h.imp (fun ⟨r, e, q⟩ => ⟨r, e, hq r q⟩) id

theorem Sim.bind {α β : Type} {P : Prop} {x : Except SErr α} {f : α → Except SErr β} {Q : α → Prop} {Q' : β → Prop} (h : Sim P x Q) (hf : ∀ r, Q r → Sim P (f r) Q') : Sim P (x >>= f) Q' := by
  rcases h with ⟨r, rfl, q⟩ | ⟨rfl, p⟩
  · exact hf r q
  · exact .inr ⟨rfl, p⟩

theorem lift_ok {α : Type} {x : Except Err α} {r : α} (h : x = .ok r) : Src.lift x = .ok r := by rw [h]; rfl

theorem mapM_ext_some {α β : Type} {f : α → Option β} : ∀ {l : List α} {r : List β}, l.mapM f = some r → ∀ {h : α → β}, (∀ x ∈ l, ∀ y, f x = some y → y = h x) → r = l.map h := by
  intro l
  induction l with
  | nil => intro r hr h _; cases hr; rfl
  | cons x l ih =>
    intro r hr h hx
    rw [List.mapM_cons] at hr
    cases hf : f x with
    | none => rw [hf] at hr; cases hr
    | some y =>
      cases hl : l.mapM f with
      | none => rw [hf, hl] at hr; cases hr
      | some ys =>
        rw [hf, hl] at hr; cases hr
        rw [hx x (by simp) y hf, ih hl fun z hz => hx z (by simp [hz])]
        rfl

/-- One kernel: the text does to the buffers what the statement tree does. -/
theorem invoke_sim {R : Runtime V} {w w' : World V} {sch : Schedule} {K : Kernel} {out : Nat} {ins : List Nat} (h : Mat.invoke R.b w sch K out ins = .ok w') (ho : out < w.g.length)
    (hins : ∀ i ∈ ins, i < w.g.length) (hw' : WInv R.b w') (hg : w'.g = w.g) {s : SWorld V} (hs : s.w = w.strip) {text : Str} {p : Syntax.Prog} (hp : Syntax.parse R.L text = some p) {P : Prop}
    (hcall : ∀ tick (o : List V), (o.length : Int) = prod (w.g.shape out) →
      Sim P (Src.exec R p tick sch o (ins.map fun i => (den R.b.A w.g i).flatten)) fun l => l = (den R.b.A w.g out).flatten) :
    Sim P (Src.invoke R s sch text out ins) fun s' => s' = { s with w := w'.strip } := by
  have ho' : out < w'.g.length := by rw [hg]; exact ho
  have hlen := flatten_len hw' ho'
  rw [hg] at hlen
  unfold Mat.invoke at h
  by_cases hni : out ∈ ins
  · rw [if_pos hni] at h; cases h
  rw [if_neg hni] at h
  by_cases hpl : K.params.length ≠ (out :: ins).length
  · rw [if_pos hpl] at h; cases h
  rw [if_neg hpl] at h
  unfold Src.invoke
  rw [hp, hs]
  cases hgpu : R.b.isGpu with
  | true =>
    simp only [hgpu, if_true] at h
    obtain ⟨w1, h1, h⟩ := except_bind_ok h
    have e1 : (out :: ins).zipIdx.foldlM (toDev R.b) w.strip = .ok w1.strip := by
      rw [foldlM_map (strip_toDev R.b), h1]; rfl
    simp only [e1, Src.lift, if_true]
    cases hd : w1.dev out with
    | none => simp only [hd] at h; cases h
    | some o =>
      cases hi : ins.mapM w1.dev with
      | none => simp only [hd, hi] at h; cases h
      | some is =>
        simp only [hd, hi] at h
        cases hrun : gpuRun R.b w1.tick (machine R.b K o is) sch K.body with
        | none => rw [hrun] at h; cases h
        | some ws =>
          rw [hrun] at h
          cases h
          have hlo : launchOK sch = true := by
            unfold gpuRun at hrun
            split at hrun
            · assumption
            · cases hrun
          have hout := (hw'.dev out (applyWrites o ws) (upd_same _ _ _)).2
          have hout' : applyWrites o ws = (den R.b.A w.g out).flatten := by rw [hout]; exact congrArg (fun g => (den R.b.A g out).flatten) hg
          have hol : (o.length : Int) = prod (w.g.shape out) := by
            rw [← hlen, ← hout', applyWrites_length]
          have his : is = ins.map fun i => (den R.b.A w.g i).flatten := by
            refine mapM_ext_some hi fun i him y hy => ?_
            have hne : i ≠ out := by rintro rfl; exact hni him
            have := (hw'.dev i y (by rw [← hy]; exact upd_ne _ _ hne)).2
            rw [this]; exact congrArg (fun g => (den R.b.A g i).flatten) hg
          have hd' : w1.strip.dev out = some o := hd
          have hi' : ins.mapM w1.strip.dev = some is := hi
          have hc := hcall w1.tick o hol
          rw [← his] at hc
          show Sim P (if launchOK sch = false then _ else _) _
          rw [if_neg (by rw [hlo]; decide)]
          show Sim P (match w1.strip.dev out, ins.mapM w1.strip.dev with
            | some o, some is => _
            | _, _ => _) _
          rw [hd', hi']
          refine hc.bind ?_
          rintro l rfl
          exact .inl ⟨_, rfl, by rw [hout']; rfl⟩
  | false =>
    simp only [hgpu] at h ⊢
    simp only [Bool.false_eq_true, if_false] at h ⊢
    rw [strip_foldl_fillCpu]
    generalize hw1 : (out :: ins).foldl (fillCpu R.b.A) w = w1 at *
    change (match cpuBuf w1 out, ins.mapM (cpuBuf w1) with
      | some o, some is => _
      | _, _ => _) = _ at h
    cases hd : cpuBuf w1 out with
    | none => simp only [hd] at h; cases h
    | some o =>
      cases hi : ins.mapM (cpuBuf w1) with
      | none => simp only [hd, hi] at h; cases h
      | some is =>
        simp only [hd, hi] at h
        cases hrun : R.b.run w1.tick (machine R.b K o is) sch K.body with
        | none => rw [hrun] at h; cases h
        | some ws =>
          rw [hrun] at h
          cases h
          have hout := (hw'.cpu out (applyWrites o ws) (upd_same _ _ _)).2
          have hout' : applyWrites o ws = (den R.b.A w.g out).flatten := by rw [hout]; exact congrArg (fun g => (den R.b.A g out).flatten) hg
          have hol : (o.length : Int) = prod (w.g.shape out) := by
            rw [← hlen, ← hout', applyWrites_length]
          have his : is = ins.map fun i => (den R.b.A w.g i).flatten := by
            refine mapM_ext_some hi fun i him y hy => ?_
            have hne : i ≠ out := by rintro rfl; exact hni him
            have hcb : cpuBuf ({ w1 with cpu := upd w1.cpu out (applyWrites o ws), tick := w1.tick + 1 } : World V) i = some y := by
              rw [← hy]; unfold cpuBuf; simp only [upd_ne _ _ hne]
            have := cpuBuf_ok hw' (by rw [hg]; exact hins i him) hcb
            rw [this]; exact congrArg (fun g => (den R.b.A g i).flatten) hg
          have hd' : cpuBuf w1.strip out = some o := hd
          have hi' : ins.mapM (cpuBuf w1.strip) = some is := hi
          have hc := hcall w1.tick o hol
          rw [← his] at hc
          rw [hd', hi']
          refine hc.bind ?_
          rintro l rfl
          exact .inl ⟨_, rfl, by rw [hout']; rfl⟩

/-- Everything a kernel computes or reads was used to build the array. -/
theorem gen_reach {b : Backend V} (hb : Faithful b) {w : World V} (hr : Reachable b w) {a : Nat} (ha : Computed w.g a) (hns : NoScalarReshape w.g a) {f : Nat} {ins : List Nat}
    {sch : Schedule} {K : Kernel} (hG : Generates b.isGpu w.g a f ins sch K) : Reach w.g a f ∧ ∀ i ∈ ins, Reach w.g a i := by
  have hw := (hr.inv hb).winv.wf
  obtain ⟨funcs, t, F, n, n', hc, hf, hF, rfl, _⟩ := hG
  have href := convert_refs hw ha.1 hns hc
  obtain ⟨funcs2, t2, e2, _, _, _, _, hre⟩ := convert_good hw ha.1 hns ha.2.1 ha.2.2
  rw [hc] at e2; cases e2
  refine ⟨hre f hf, fun i hi => (hre f hf).trans (href f F hF i (mem_refs.2 ?_))⟩
  rcases List.mem_append.1 hi with hi | hi
  · exact .inr (mem_dedup.1 hi)
  · exact .inl (mem_dedup.1 hi)

theorem lookup_sim {R : Runtime V} {ts : List (Key × Str)} {cs : List (Key × Kernel)}
    (h : List.Forall₂ (fun x y => x.1 = y.1 ∧ Syntax.parse R.L x.2 = some (y.2.program R.L (Text.kernName (R.digest y.1)))) ts cs) (key : Key) :
    (cs.lookup key = none ∧ ts.lookup key = none) ∨ ∃ K text, cs.lookup key = some K ∧ ts.lookup key = some text ∧ Syntax.parse R.L text = some (K.program R.L (Text.kernName (R.digest key))) := by
  induction h with
  | nil => exact .inl ⟨rfl, rfl⟩
  | @cons x y ts cs hxy _ ih =>
    obtain ⟨k1, t⟩ := x
    obtain ⟨k2, K⟩ := y
    obtain ⟨h1, h2⟩ := hxy
    simp only at h1 h2
    subst h1
    rw [List.lookup_cons, List.lookup_cons]
    cases hk : key == k1 with
    | false => exact ih
    | true =>
      have := eq_of_beq hk
      subst this
      exact .inr ⟨K, t, rfl, rfl, h2⟩

/-- What is assumed about the kernels: calling their programs computes their arrays. -/
def CallsOK (P : Prop) (R : Runtime V) (g : Graph V) (a : Nat) : Prop :=
  ∀ f ins sch K, Generates R.b.isGpu g a f ins sch K → ∀ name tick (o : List V), (o.length : Int) = prod (g.shape f) →
    Sim P (Src.exec R (K.program R.L name) tick sch o (ins.map fun i => (den R.b.A g i).flatten)) fun l => l = (den R.b.A g f).flatten

theorem runFunc_sim {R : Runtime V} (hR : R.OK) {P : Prop} {w w' : World V} (h : WInv R.b w) (hw' : WInv R.b w') (hgw : w'.g = w.g) {funcs : List Nat} {t : Tbl} {a f : Nat} {S : Nat → Prop}
    (hconv : Algo.convert w.g a = .ok (funcs, t)) (hff : f ∈ funcs) (ht : TblGood w.g t a S) (hf : S f) {F : Func} (hF : t f = some F) {sch : Schedule}
    (hsch : Sched.schedule R.b.isGpu F = .ok sch) (hnc : NoCollision w.log) (hlog : ∀ q, plan1 w.g t (a + 2) (f, sch) = some q → q ∈ w.log)
    (hc : CallsOK P R w.g a) (hrun : Mat.runFunc R.b t (a + 2) w (f, sch) = .ok w') {s : SWorld V} (hs : Matches R s w) :
    Sim P (Src.runFunc R t (a + 2) s (f, sch)) fun s' => Matches R s' w' := by
  obtain ⟨hfa, hfc, F', hF', hE, hrefs⟩ := ht.entry f hf
  rw [hF] at hF'; cases hF'
  have hsw : s.w = w.strip := hs.same
  have hm := schedule_modes hR.lang hsch
  have hL := LvOK.schedule hsch
  unfold Mat.runFunc at hrun
  simp only [hF] at hrun
  obtain ⟨outs, houts, hrun⟩ := except_bind_ok hrun
  obtain ⟨key, hkey, hrun⟩ := except_bind_ok hrun
  have houts' : outs = (Algo.args F.expr).2 := by
    have : outBufs t (Algo.args F.expr).2 = .ok ((Algo.args F.expr).2.map id) := by
      apply mapM_ok
      intro d hd
      obtain ⟨_, _, D, hD, hED, _⟩ := ht.entry d (hrefs d (mem_dedup.1 hd)).1
      simp only [hD, pure, Except.pure, hED.buffer, id]
    rw [this, List.map_id] at houts
    cases houts; rfl
  have hkey' : cacheKey s.w.g t (a + 2) F sch = .ok key := by rw [hsw]; exact hkey
  have hins : ∀ i ∈ (Algo.args F.expr).1 ++ outs, i < w.g.length := by
    intro i hi
    rcases List.mem_append.1 hi with hi | hi
    · exact (RootWF.bufs hE.wf i (mem_dedup.1 hi)).1
    · rw [houts'] at hi
      obtain ⟨_, _, D, hD, hED, _⟩ := ht.entry i (hrefs i (mem_dedup.1 hi)).1
      exact hED.lt
  have hob : F.outBuffer = f := hE.buffer
  have hgen : ∀ {n n' K}, codegen w.g t F sch (argsOf F) n = .ok (K, n') → Generates R.b.isGpu w.g a f ((Algo.args F.expr).1 ++ outs) sch K := by
    intro n n' K hK
    exact ⟨funcs, t, F, n, n', hconv, hff, hF, by rw [houts'], hsch, hK⟩
  unfold Src.runFunc
  simp only [hF]
  rw [lift_ok houts]
  simp only [bind, Except.bind]
  rw [lift_ok hkey']
  simp only
  rcases lookup_sim hs.texts key with ⟨e1, e2⟩ | ⟨K, text, e1, e2, hpar⟩
  · rw [e1] at hrun
    rw [e2]
    simp only
    simp only at hrun
    obtain ⟨⟨K, n⟩, hK, hrun⟩ := except_bind_ok hrun
    obtain ⟨w1, hinv, hrun⟩ := except_bind_ok hrun
    cases hrun
    have hw1 : WInv R.b w1 := ⟨hw'.wf, hw'.nn, hw'.cpu, hw'.dev, hw'.cache, hw'.ev⟩
    obtain ⟨text, hC⟩ : ∃ text, Text.codegen R.L (Text.kernName (R.digest key)) w.g t F sch ⟨(Algo.args F.expr).1, (Algo.args F.expr).2⟩ w.tmp = .ok (text, n) :=
      ⟨_, Text.codegen_tree R.L _ hm hK⟩
    have hpar : Syntax.parse R.L text = some (K.program R.L (Text.kernName (R.digest key))) :=
      Props.C37_parse hR.lang (hR.hex key) ⟨funcs, t, F, sch, w.tmp, n, hconv, hff, hF, hsch, hC, hK⟩
    have hC' : Text.codegen R.L (Text.kernName (R.digest key)) s.w.g t F sch ⟨(Algo.args F.expr).1, (Algo.args F.expr).2⟩ s.w.tmp = .ok (text, n) := by
      rw [hsw]; exact hC
    rw [lift_ok hC']
    simp only
    have := invoke_sim (R := R) (s := { w := { s.w with tmp := n }, texts := s.texts ++ [(key, text)] }) hinv (by rw [hob]; exact hE.lt) hins hw1 hgw (by rw [hsw]; rfl) hpar
      (by rw [hob]; intro tick o ho; exact hc f _ sch K (hgen hK) _ tick o ho)
    refine this.mono ?_
    rintro _ rfl
    have hcache := (invoke_frame hinv).cache
    refine ⟨rfl, ?_⟩
    show List.Forall₂ _ (s.texts ++ [(key, text)]) w1.cache
    rw [hcache]
    exact List.rel_append hs.texts (.cons ⟨rfl, hpar⟩ .nil)
  · rw [e1] at hrun
    rw [e2]
    simp only at hrun ⊢
    have hlog' : (key, codegen w.g t F sch (argsOf F) 0) ∈ w.log := by
      apply hlog
      simp only [plan1, hF, hkey]; rfl
    obtain ⟨K1, n1, n, hm1, rfl⟩ := h.cache key K (mem_of_lookup e1)
    have heq := hnc _ hm1 _ hlog' rfl
    simp only at heq
    have hKn : codegen w.g t F sch (argsOf F) (0 + n) = .ok (K1.shift n, n1 + n) := by
      rw [codegen_shift hL, ← heq]; rfl
    have := invoke_sim (R := R) (s := s) hrun (by rw [hob]; exact hE.lt) hins hw' hgw hsw hpar
      (by rw [hob]; intro tick o ho; exact hc f _ sch _ (hgen hKn) _ tick o ho)
    refine this.mono ?_
    rintro _ rfl
    have hcache := (invoke_frame hrun).cache
    refine ⟨rfl, ?_⟩
    show List.Forall₂ _ s.texts w'.cache
    rw [hcache]
    exact hs.texts

theorem runFuncs_sim {R : Runtime V} (hR : R.OK) (hb : Faithful R.b) {P : Prop} {t : Tbl} {a : Nat} {g : Graph V} {funcs : List Nat} (hconv : Algo.convert g a = .ok (funcs, t))
    (ht : TblGood g t a (· ∈ funcs)) (hc : CallsOK P R g a) :
    ∀ (ps : List (Nat × Schedule)) (done : List Nat) (w : World V), WInv R.b w → w.g = g → NoCollision w.log →
    (∀ p ∈ ps, p.1 ∈ funcs ∧ ∃ F, t p.1 = some F ∧ Sched.schedule R.b.isGpu F = .ok p.2) →
    (R.b.isGpu = true → ∀ p ∈ ps, ∀ F, t p.1 = some F → ∀ i, (i = p.1 ∨ i ∈ Algo.funcRefs F.expr ∨ i ∈ Algo.bufRefs F.expr) → 0 < prod (g.shape i) ∧ (i = p.1 → g.ctx p.1 ≠ .const → GridOK (launchGrid (g.shape i)))) →
    (∀ p ∈ ps, ∀ q, plan1 g t (a + 2) p = some q → q ∈ w.log) →
    Ordered t (done ++ ps.map (·.1)) → (∀ d ∈ done, Avail R.b w d) → ∀ s, Matches R s w →
    ∃ w', ps.foldlM (Mat.runFunc R.b t (a + 2)) w = .ok w' ∧ Sim P (ps.foldlM (Src.runFunc R t (a + 2)) s) fun s' => Matches R s' w' := by
  intro ps
  induction ps with
  | nil => intro done w h _ _ _ _ _ _ _ s hs; exact ⟨w, rfl, .inl ⟨s, rfl, hs⟩⟩
  | cons p ps ih =>
    intro done w h hg hnc hp hsz hlog ho hd s hs
    obtain ⟨hS, F, hF, hsc⟩ := hp p (by simp)
    subst hg
    obtain ⟨w1, e1, s1, a1⟩ := runFunc_ok hb h ht hS hF hsc (fun hgpu i hi => hsz hgpu p (by simp) F hF i hi)
      (fun d hd' => hd d (ho done p.1 (ps.map (·.1)) (by simp) F hF d hd')) hnc (fun q hq => hlog p (by simp) q hq)
    have hsim := runFunc_sim hR h s1.inv s1.g hconv hS ht hS hF hsc hnc (fun q hq => hlog p (by simp) q hq) hc e1 hs
    have hrest := ih (done ++ [p.1]) w1 s1.inv s1.g (by rw [s1.log]; exact hnc) (fun q hq => hp q (by simp [hq]))
      (fun hgpu q hq => hsz hgpu q (by simp [hq])) (fun q hq r hr => by rw [s1.log]; exact hlog q (by simp [hq]) r hr)
      (by simpa using ho) (by
        intro d hd'
        rcases List.mem_append.1 hd' with hd' | hd'
        · exact s1.avail (hd d hd')
        · simp only [List.mem_singleton] at hd'; rw [hd']; exact a1)
    rcases hsim with ⟨s2, e2, m2⟩ | ⟨e2, hP⟩
    · obtain ⟨w2, e3, hs2⟩ := hrest s2 m2
      refine ⟨w2, by rw [List.foldlM_cons, e1]; exact e3, ?_⟩
      rw [List.foldlM_cons, e2]; exact hs2
    · obtain ⟨w2, e3, _⟩ := runFuncs_ok hb ht ps (done ++ [p.1]) w1 s1.inv s1.g (by rw [s1.log]; exact hnc) (fun q hq => hp q (by simp [hq]))
        (fun hgpu q hq => hsz hgpu q (by simp [hq])) (fun q hq r hr => by rw [s1.log]; exact hlog q (by simp [hq]) r hr)
        (by simpa using ho) (by
          intro d hd'
          rcases List.mem_append.1 hd' with hd' | hd'
          · exact s1.avail (hd d hd')
          · simp only [List.mem_singleton] at hd'; rw [hd']; exact a1)
      refine ⟨w2, by rw [List.foldlM_cons, e1]; exact e3, ?_⟩
      rw [List.foldlM_cons, e2]; exact .inr ⟨rfl, hP⟩

theorem materialize_sim {R : Runtime V} (hR : R.OK) (hb : Faithful R.b) {P : Prop} {w : World V} (h : WInv R.b w) {a : Nat} (ha : a < w.g.length)
    (hns : NoScalarReshape w.g (base w.g a)) (hnc : NoCollision (w.log ++ launchLog R.b.isGpu w.g a)) (hsz : R.b.isGpu = true → KernelSizes w.g (base w.g a))
    (hc : Computed w.g (base w.g a) → CallsOK P R w.g (base w.g a)) {s : SWorld V} (hs : Matches R s w) :
    ∃ w', Mat.materialize R.b w a = .ok w' ∧ Sim P (Src.materialize R s a) fun s' => Matches R s' w' := by
  have hbl : base w.g a < w.g.length := Nat.lt_of_le_of_lt (base_le h.wf ha) ha
  have hv := base_base h.wf ha
  obtain ⟨f', e⟩ := materializeF_base (b := R.b) h.wf ha (a + 1) (by omega)
  have hsw : s.w = w.strip := hs.same
  have hsg : s.w.g = w.g := by rw [hsw]; rfl
  have e' : ∀ (a : Nat), a < w.g.length → ∀ fuel, a < fuel → ∃ fuel', Src.materializeF R fuel s a = Src.materializeF R (fuel' + 1) s (base w.g a) := by
    intro a
    induction a using Nat.strongRecOn with
    | ind a ih =>
      intro ha fuel hf
      obtain ⟨fuel, rfl⟩ : ∃ k, fuel = k + 1 := ⟨fuel - 1, by omega⟩
      cases hv : (w.g.ctx a).op.isView with
      | false => rw [base_nonview hv]; exact ⟨fuel, rfl⟩
      | true =>
        obtain ⟨x, hx⟩ := view_input hv h.wf ha
        have hlt := h.wf.inputs_lt ha x (by rw [hx]; simp)
        obtain ⟨f', e⟩ := ih x hlt (by omega) fuel (by omega)
        refine ⟨f', ?_⟩
        rw [base_view h.wf ha hv hx, ← e]
        conv => lhs; unfold Src.materializeF
        simp only [hsg, view_not_const hv, hv, hx]; rfl
  obtain ⟨f2, e2⟩ := e' a ha (a + 1) (by omega)
  unfold Mat.materialize Src.materialize
  rw [e, e2]
  by_cases hcc : w.g.ctx (base w.g a) = .const
  · have hop : (w.g.ctx (base w.g a)).op.isConst = true := by rw [hcc]; rfl
    refine ⟨w, ?_, .inl ⟨s, ?_, hs⟩⟩
    · unfold Mat.materializeF; rw [if_pos hop]; rfl
    · unfold Src.materializeF; rw [hsg, if_pos hop]
  · have hcop : (w.g.ctx (base w.g a)).op.isConst = false := by
      cases hop : (w.g.ctx (base w.g a)).op.isConst with
      | false => rfl
      | true =>
        exfalso
        have hn := h.wf (base w.g a) hbl
        unfold NodeOK at hn
        have hx : (w.g.nd (base w.g a)).ctx = w.g.ctx (base w.g a) := rfl
        rw [hx] at hn
        cases hk : w.g.ctx (base w.g a) <;> rw [hk] at hop hn <;> simp only [Ctx.op] at hop <;> try exact absurd hop (by decide)
        · exact hcc hk
        · rw [unary_not_const hn.2.1] at hop; cases hop
        · rw [binary_not_const hn.2.2.1] at hop; cases hop
    rw [launchLog_base h.wf ha] at hnc
    generalize base w.g a = x at *
    obtain ⟨funcs, t, ec, hnd, ⟨pre, hpre⟩, hord, htg, hreach⟩ := convert_good h.wf hbl hns hv hcc
    obtain ⟨scheds, es, hl, hps⟩ := schedAll_ok (isGpu := R.b.isGpu) htg funcs (fun _ h => h)
    have hlog : launchLog R.b.isGpu w.g x = (funcs.zip scheds).filterMap (plan1 w.g t (x + 2)) := by
      unfold launchLog launchLogF
      simp only [hcop, hv, ec, es]; rfl
    have hmap : (funcs.zip scheds).map (·.1) = funcs := by
      apply List.map_fst_zip; omega
    obtain ⟨w', ew, hsim⟩ := runFuncs_sim hR hb (P := P) ec htg (hc ⟨hbl, hv, hcc⟩) (funcs.zip scheds) []
      { w with log := w.log ++ (funcs.zip scheds).filterMap (plan1 w.g t (x + 2)) }
      ⟨h.wf, h.nn, h.cpu, h.dev, fun k K hk => by
        obtain ⟨K0, n0, n, h1, h2⟩ := h.cache k K hk
        exact ⟨K0, n0, n, List.mem_append_left _ h1, h2⟩, h.ev⟩ rfl (by rw [← hlog]; exact hnc)
      (fun p hp => ⟨by rw [← hmap]; exact List.mem_map_of_mem hp, hps p hp⟩)
      (fun hgpu p hp F hF i hi => hsz hgpu funcs t ec p.1 (by rw [← hmap]; exact List.mem_map_of_mem hp) F hF i hi)
      (fun p hp q hq => List.mem_append_right _ (List.mem_filterMap.2 ⟨p, hp, hq⟩))
      (by rw [hmap]; exact hord) (by simp) { s with w := { s.w with log := s.w.log ++ (funcs.zip scheds).filterMap (plan1 s.w.g t (x + 2)) } }
      ⟨by rw [hsw]; rfl, hs.texts⟩
    refine ⟨w', ?_, ?_⟩
    · unfold Mat.materializeF
      simp only [hcop, hv, ec, es, bind, Except.bind]
      exact ew
    · have ec' : Src.lift (Algo.convert s.w.g x) = .ok (funcs, t) := lift_ok (by rw [hsg]; exact ec)
      have es' : Src.lift (schedAll R.b.isGpu t funcs) = .ok scheds := lift_ok es
      unfold Src.materializeF
      rw [hsg, hcop, hv]
      simp only [Bool.false_eq_true, if_false]
      rw [← hsg, ec']
      simp only [bind, Except.bind]
      rw [es']
      exact hsim

end Whale
