import Verif.Proofs.EmbedD
import Verif.Proofs.Collect
import Verif.Proofs.Stopped
import Verif.Proofs.RelatedW
/-
A program alone and amid other code: which data exist.
-/
namespace Whale
open Hist Bwd Mat
variable {V : Type} {ρ : Nat → Nat}

theorem notConst_op {g : Graph V} (hw : WF g) {a : Nat} (ha : a < g.length) (hc : g.ctx a ≠ .const) : (g.ctx a).op.isConst = false := by
  cases hcc : g.ctx a <;> simp only [Ctx.op] <;> try decide
  · exact absurd hcc hc
  · have := hw a ha
    unfold NodeOK at this
    have hcc' : (g.nd a).ctx = _ := hcc
    rw [hcc'] at this
    exact unary_not_const this.2.1
  · have := hw a ha
    unfold NodeOK at this
    have hcc' : (g.nd a).ctx = _ := hcc
    rw [hcc'] at this
    exact binary_not_const this.2.2.1

/-- `materialize` makes the data of every kernel of the conversion available, and no others. -/
theorem materialize_exact {b : Backend V} (hb : Faithful b) {w w' : World V} (h : Inv b w) {a : Nat} (ha : a < w.g.length) (hok : ArgsOK b w (.materialize a)) (hm : materialize b w a = .ok w')
    (hc : w.g.ctx (base w.g a) ≠ .const) :
    ∃ funcs t, Algo.convert w.g (base w.g a) = .ok (funcs, t) ∧ (∀ f ∈ funcs, Avail b w' f) ∧ ∀ i, i ∉ funcs → w.g.ctx i ≠ .const → SameAt w w' i := by
  have hw := h.winv.wf
  obtain ⟨hns, hncol, hne⟩ := hok
  obtain ⟨fuel', e⟩ := materializeF_base (b := b) hw ha (a + 1) (by omega)
  unfold materialize at hm
  rw [e] at hm
  have hbl := Nat.lt_of_le_of_lt (base_le hw ha) ha
  have hbb := base_base hw ha
  have hcop := notConst_op hw hbl hc
  have hsz : b.isGpu = true → KernelSizes w.g (base w.g a) := fun hg => kernelSizes_of hw ha hns (hne hg)
  rw [launchLog_base hw ha] at hncol
  unfold materializeF at hm
  simp only [hcop, hbb, Bool.false_eq_true, if_false] at hm
  obtain ⟨funcs, t, e, hnd, ⟨pre, hpre⟩, hord, htg, hreach⟩ := convert_good hw hbl hns hbb hc
  obtain ⟨scheds, es, hl, hps⟩ := schedAll_ok (isGpu := b.isGpu) htg funcs (fun _ h => h)
  simp only [e, es, bind, Except.bind] at hm
  have hmap : (funcs.zip scheds).map (·.1) = funcs := by apply List.map_fst_zip; omega
  have hlog : launchLog b.isGpu w.g (base w.g a) = (funcs.zip scheds).filterMap (plan1 w.g t (base w.g a + 2)) := by
    unfold launchLog launchLogF
    simp only [hcop, hbb, e, es]; rfl
  refine ⟨funcs, t, e, ?_, ?_⟩
  · obtain ⟨w1, e', s', av⟩ := runFuncs_ok hb htg (funcs.zip scheds) []
      { w with log := w.log ++ (funcs.zip scheds).filterMap (plan1 w.g t (base w.g a + 2)) }
      ⟨hw, h.winv.nn, h.winv.cpu, h.winv.dev, fun k K hk => by
        obtain ⟨K0, n0, n, h1, h2⟩ := h.winv.cache k K hk
        exact ⟨K0, n0, n, List.mem_append_left _ h1, h2⟩, h.winv.ev⟩ rfl (by rw [← hlog]; exact hncol)
      (fun p hp => ⟨by rw [← hmap]; exact List.mem_map_of_mem hp, hps p hp⟩)
      (fun hgpu p hp F hF i hi => hsz hgpu funcs t e p.1 (by rw [← hmap]; exact List.mem_map_of_mem hp) F hF i hi)
      (fun p hp q hq => List.mem_append_right _ (List.mem_filterMap.2 ⟨p, hp, hq⟩))
      (by rw [hmap]; exact hord) (by simp)
    rw [e'] at hm; cases hm
    intro f hf
    rw [← hmap] at hf
    obtain ⟨p, hp, rfl⟩ := List.mem_map.1 hf
    exact av p hp
  · intro i hi hci
    suffices hs : _ by
      have hs' := runFuncs_foot (i := i) hm hs
      exact ⟨hs'.1, hs'.2⟩
    intro q hq
    have hqf : q.1 ∈ funcs := by rw [← hmap]; exact List.mem_map_of_mem hq
    obtain ⟨_, _, F, hF, hE, hrefs⟩ := htg.entry q.1 hqf
    refine ⟨F, hF, hE.buffer, fun hm => ?_, fun d hd => ?_⟩
    · rcases List.mem_cons.1 hm with rfl | hm
      · exact hi hqf
      · rcases List.mem_append.1 hm with hm | hm
        · exact hci (RootWF.bufs hE.wf i (mem_dedup.1 hm)).2.2
        · exact hi (hrefs i (mem_dedup.1 hm)).1
    · obtain ⟨_, _, D, hD, hED, _⟩ := htg.entry d (hrefs d (mem_dedup.1 hd)).1
      exact ⟨D, hD, hED.buffer⟩

theorem materialize_const {b : Backend V} {w w' : World V} (hw : WF w.g) {a : Nat} (ha : a < w.g.length) (hm : materialize b w a = .ok w') (hc : w.g.ctx (base w.g a) = .const) : w' = w := by
  obtain ⟨fuel', e⟩ := materializeF_base (b := b) hw ha (a + 1) (by omega)
  unfold materialize at hm
  rw [e] at hm
  unfold materializeF at hm
  rw [hc] at hm
  cases hm; rfl

theorem Avail.same {b : Backend V} {w w' : World V} {i : Nat} (hg : w'.g = w.g) (h : SameAt w w' i) (ha : Avail b w' i) : Avail b w i := by
  unfold Avail cpuBuf at *
  rwa [h.1, h.2, hg] at ha

/-- The two worlds. -/
structure Mirror (b : Backend V) (u w : World V) (ρ : Nat → Nat) : Prop where
  iu : Inv b u
  iw : Inv b w
  emb : WEmb (extend ρ u.g.length w.g.length) u w
  avail : ∀ i < u.g.length, Avail b u i → Avail b w (ρ i)

theorem extend_lt {n m i : Nat} (h : i < n) : extend ρ n m i = ρ i := if_pos h
theorem extend_ge {n m i : Nat} (h : n ≤ i) : extend ρ n m i = m + (i - n) := if_neg (by omega)

theorem extend_self {g1 g2 : Graph V} (h : GEmb ρ g1 g2) : extend ρ g1.length g2.length = ρ := by
  funext i
  by_cases hi : i < g1.length
  · exact extend_lt hi
  · rw [extend_ge (by omega), ← h.top (i - g1.length)]
    congr 1; omega

theorem Call.ren_congr {ρ σ : Nat → Nat} {c : Call V} (h : ∀ a ∈ c.arrays, ρ a = σ a) : c.ren ρ = c.ren σ := by
  cases c <;> simp [Call.arrays] at h <;> simp [Call.ren, h]

theorem Call.ren_extend {n m : Nat} {c : Call V} (h : ∀ a ∈ c.arrays, a < n) : c.ren ρ = c.ren (extend ρ n m) := Call.ren_congr fun a ha => (extend_lt (h a ha)).symm

theorem lazy_of_ren (ρ : Nat → Nat) (c : Call V) : lazyCall (c.ren ρ) = lazyCall c := by cases c <;> rfl
theorem atomic_ren (ρ : Nat → Nat) (c : Call V) : Call.atomic (c.ren ρ) = Call.atomic c := by cases c <;> rfl

theorem Mirror.start {b : Backend V} (hb : Faithful b) {w : World V} (h : Reachable b w) (ρ : Nat → Nat) : Mirror b Mat.init w ρ := by
  have hi := h.inv hb
  refine ⟨Inv.init b, hi, ⟨⟨?_, ?_, ?_⟩, ?_⟩, ?_⟩
  · intro i j hij
    show extend ρ 0 w.g.length i < extend ρ 0 w.g.length j
    rw [extend_ge (by omega), extend_ge (by omega)]; omega
  · intro i
    show w.g.nd (extend ρ 0 w.g.length i) = _
    rw [extend_ge (by omega)]
    have : ∀ g : Graph V, ∀ i, g.length ≤ i → g.nd i = default := fun g i h => by unfold Graph.nd; rw [List.getD_eq_getElem?_getD, List.getElem?_eq_none h]; rfl
    rw [this _ _ (by omega), this _ _ (by simp [Mat.init])]; rfl
  · intro k
    show extend ρ 0 w.g.length (0 + k) = _
    rw [extend_ge (by omega)]; omega
  · intro i
    show w.grad (extend ρ 0 w.g.length i) = none
    rw [extend_ge (by omega)]
    cases hk : w.grad (w.g.length + (i - 0)) with
    | none => rfl
    | some k => have := (hi.gs _ _ hk).1; omega
  · intro i hi; cases hi

theorem lazy_cpu {b : Backend V} {w w' : World V} (h : Inv b w) {c : Call V} (ha : ArgsOK b w c) {o : Out V} (hz : lazyCall c = true) (hst : step b w c = .ok (o, w')) : w'.cpu = w.cpu ∧ w'.dev = w.dev := by
  unfold step at hst
  split at hst
  case isFalse => cases hst
  rename_i hin
  cases c <;> simp only [exec1] at hst
  case full | fullLike | onesLike | zerosLike | un | broadcastTo | contiguous => obtain ⟨_, rfl⟩ := made_eq hst; exact ⟨rfl, rfl⟩
  case array | arange | bin | binScalar | sum | getitem | reshape | T | transpose | pad | dilate => obtain ⟨_, _, _, _, rfl⟩ := madeE_eq hst; exact ⟨rfl, rfl⟩
  case materialize | tolist => cases hz
  case backward y =>
    have hy : y < w.g.length := hin y (.head _)
    obtain ⟨w2, order, e, hr⟩ := backward_ok b.A h.winv.wf h.nn h.gs hy ha
    rw [e] at hst; cases hst
    rw [hr.step.rest]; exact ⟨rfl, rfl⟩
  case grad a => cases h : w.grad a <;> (rw [h] at hst; cases hst; exact ⟨rfl, rfl⟩)
  case clearGrad a => cases hst; exact ⟨rfl, rfl⟩
  case setGrad a k => cases hst; exact ⟨rfl, rfl⟩
  case reset => cases hst; exact ⟨rfl, rfl⟩

/-- Other code. -/
theorem Mirror.other {b : Backend V} {u w w' : World V} (h : Mirror b u w ρ) (iw : Inv b w') (hl : Later b w w') (hg : ∀ i < u.g.length, w'.grad (ρ i) = w.grad (ρ i)) : Mirror b u w' ρ := by
  have hlt : ∀ i < u.g.length, ρ i < w.g.length := fun i hi => by
    have := h.emb.g.lt.2 hi
    rwa [extend_lt hi] at this
  have hle := hl.ext.length
  have hdef : ∀ g : Graph V, ∀ i, g.length ≤ i → g.nd i = default := fun g i h => by unfold Graph.nd; rw [List.getD_eq_getElem?_getD, List.getElem?_eq_none h]; rfl
  refine ⟨h.iu, iw, ⟨⟨?_, ?_, ?_⟩, ?_⟩, fun i hi ha => hl.avail (hlt i hi) (h.avail i hi ha)⟩
  · intro i j hij
    by_cases hj : j < u.g.length
    · rw [extend_lt hj, extend_lt (Nat.lt_trans hij hj)]
      have := h.emb.g.mono hij
      rwa [extend_lt hj, extend_lt (Nat.lt_trans hij hj)] at this
    · rw [extend_ge (i := j) (by omega)]
      by_cases hi : i < u.g.length
      · rw [extend_lt hi]
        have := hlt i hi; omega
      · rw [extend_ge (by omega)]; omega
  · intro i
    by_cases hi : i < u.g.length
    · rw [extend_lt hi, hl.ext.nd (hlt i hi)]
      have := h.emb.g.nd i
      rw [extend_lt hi] at this
      rw [this]
      unfold Node.ren
      have hc : ((u.g.nd i).ctx).ren (extend ρ u.g.length w.g.length) = ((u.g.nd i).ctx).ren (extend ρ u.g.length w'.g.length) := by
        refine Ctx.ren_congr fun x hx => ?_
        have hx' := Nat.lt_trans (h.iu.winv.wf.inputs_lt hi x hx) hi
        rw [extend_lt hx', extend_lt hx']
      rw [hc]
    · rw [extend_ge (by omega), hdef _ _ (by omega), hdef u.g _ (by omega)]; rfl
  · intro k
    rw [extend_ge (by omega)]; omega
  · intro i
    by_cases hi : i < u.g.length
    · rw [extend_lt hi, hg i hi]
      have := h.emb.grad i
      rw [extend_lt hi] at this
      rw [this]
      cases hk : u.grad i with
      | none => rfl
      | some k =>
        have hk' := (h.iu.gs i k hk).2.1
        simp only [Option.map_some]
        rw [extend_lt hk', extend_lt hk']
    · rw [extend_ge (by omega)]
      cases hk : u.grad i with
      | some k => have := (h.iu.gs _ _ hk).1; omega
      | none =>
        cases hk' : w'.grad (w'.g.length + (i - u.g.length)) with
        | none => rfl
        | some k => have := (iw.gs _ _ hk').1; omega

/-- A call assigns to no gradient but those it says. -/
theorem grad_frame {b : Backend V} {w w' : World V} (h : Inv b w) {c : Call V} (hl : Legal b w c) (hn : next b w c = some w') {i : Nat} (hs : ¬ SetsGrad w.g i c) : w'.grad i = w.grad i := by
  unfold next at hn
  cases hst : step b w c with
  | error e =>
    rw [hst] at hn
    simp only at hn
    split at hn
    · cases hn; rfl
    · cases hn
  | ok p =>
    obtain ⟨o, w1⟩ := p
    rw [hst] at hn
    cases hn
    have ha : ArgsOK b w c := hl.resolve_left fun ⟨e, he⟩ => by rw [hst] at he; cases he
    unfold step at hst
    split at hst
    case isFalse => cases hst
    rename_i hin
    cases c <;> simp only [exec1] at hst
    case full | fullLike | onesLike | zerosLike | un | broadcastTo | contiguous => obtain ⟨_, rfl⟩ := made_eq hst; rfl
    case array | arange | bin | binScalar | sum | getitem | reshape | T | transpose | pad | dilate => obtain ⟨_, _, _, _, rfl⟩ := madeE_eq hst; rfl
    case materialize a =>
      cases hm : materialize b w a with
      | error e => rw [hm] at hst; cases hst
      | ok w2 => rw [hm] at hst; cases hst; rw [(materialize_keeps hm).2]
    case tolist a =>
      cases hm : tolist b w a with
      | error e => rw [hm] at hst; cases hst
      | ok p => rw [hm] at hst; cases hst; rw [(tolist_keeps hm).2]
    case backward y =>
      have hy : y < w.g.length := hin y (.head _)
      obtain ⟨w2, order, e, hr⟩ := backward_ok b.A h.winv.wf h.nn h.gs hy ha
      rw [e] at hst; cases hst
      exact hr.same i hs
    case grad a => cases w.grad a <;> (cases hst; rfl)
    case clearGrad a => cases hst; exact if_neg fun e => hs e.symm
    case setGrad a k => cases hst; exact if_neg fun e => hs e.symm
    case reset => cases hst; rfl

theorem Mirror.call {b : Backend V} (hb : Faithful b) {u w w' : World V} (h : Mirror b u w ρ) {c : Call V} (hl : Legal b w c) (hs : ∀ i < u.g.length, ¬ SetsGrad w.g (ρ i) c)
    (hn : next b w c = some w') : Mirror b u w' ρ := by
  obtain ⟨iw, hlt⟩ := next_ok hb h.iw hl hn
  exact h.other iw hlt fun i hi => grad_frame h.iw hl hn (hs i hi)

theorem WEmb.keeps {u w u' w' : World V} (h : WEmb ρ u w) (hu : Keeps u u') (hw : Keeps w w') : WEmb ρ u' w' :=
  ⟨by rw [hu.1, hw.1]; exact h.g, by rw [hu.2, hw.2]; exact h.grad⟩

theorem Mirror.mk' {b : Backend V} {u w : World V} (iu : Inv b u) (iw : Inv b w) (h : WEmb ρ u w) (ha : ∀ i < u.g.length, Avail b u i → Avail b w (ρ i)) : Mirror b u w ρ :=
  ⟨iu, iw, by rw [extend_self h.g]; exact h, ha⟩

theorem next_tolist {b : Backend V} {w w' : World V} {a : Nat} (hn : next b w (.tolist a) = some w') : w' = w ∨ ∃ l, tolist b w a = .ok (l, w') := by
  unfold next at hn
  cases hs : step b w (.tolist a) with
  | error e => rw [hs] at hn; cases hn; exact .inl rfl
  | ok p =>
    rw [hs] at hn; cases hn
    unfold step at hs
    split at hs
    · simp only [exec1] at hs
      cases hm : tolist b w a with
      | error e => rw [hm] at hs; cases hs
      | ok q => rw [hm] at hs; cases hs; exact .inr ⟨q.1, rfl⟩
    · cases hs

theorem next_materialize {b : Backend V} {w w' : World V} {a : Nat} (hn : next b w (.materialize a) = some w') : a < w.g.length ∧ materialize b w a = .ok w' ∧ ∃ o, step b w (.materialize a) = .ok (o, w') := by
  unfold next at hn
  cases hs : step b w (.materialize a) with
  | error e => rw [hs] at hn; cases hn
  | ok p =>
    rw [hs] at hn; cases hn
    have hs' := hs
    unfold step at hs
    split at hs
    · rename_i hin
      simp only [exec1] at hs
      cases hm : materialize b w a with
      | error e => rw [hm] at hs; cases hs
      | ok q => rw [hm] at hs; cases hs; exact ⟨hin a (.head _), rfl, _, rfl⟩
    · cases hs

/-- The program's own call. -/
theorem Mirror.mine {b : Backend V} (hb : Faithful b) {u w u' w' : World V} (h : Mirror b u w ρ) {c : Call V} (hin : ∀ a ∈ c.arrays, a < u.g.length) (hlu : Legal b u c) (hlw : Legal b w (c.ren ρ))
    (hnu : next b u c = some u') (hnw : next b w (c.ren ρ) = some w') : Mirror b u' w' (extend ρ u.g.length w.g.length) := by
  obtain ⟨iu, ltu⟩ := next_ok hb h.iu hlu hnu
  obtain ⟨iw, ltw⟩ := next_ok hb h.iw hlw hnw
  rw [Call.ren_extend (m := w.g.length) hin] at hlw hnw
  have hav : ∀ i < u.g.length, Avail b u i → Avail b w' (extend ρ u.g.length w.g.length i) := fun i hi ha =>
    ltw.avail (h.emb.g.lt.2 hi) (by rw [extend_lt hi]; exact h.avail i hi ha)
  have hemb := h.emb
  generalize extend ρ u.g.length w.g.length = σ at *
  have hcc : ∀ i, u.g.ctx i = .const → i < u.g.length → w'.g.ctx (σ i) = .const ∧ σ i < w'.g.length := fun i hc hi => by
    have hl := hemb.g.lt.2 hi
    refine ⟨?_, Nat.lt_of_lt_of_le hl ltw.ext.length⟩
    rw [ltw.ext.ctx hl, hemb.g.ctx, hc]; rfl
  by_cases hz : lazyCall c = true
  · have hs := step_emb b h.iu.winv.wf hemb hz
    unfold next at hnu hnw
    rw [atomic_ren] at hnw
    match hx : step b u c, hy : step b w (c.ren σ), hs with
    | .ok (o, u1), .ok (o', w1), ⟨_, hs⟩ =>
      rw [hx] at hnu; rw [hy] at hnw
      cases hnu; cases hnw
      refine .mk' iu iw hs fun i hi ha => ?_
      have hcpu := lazy_cpu h.iu (hlu.resolve_left fun ⟨e, he⟩ => by rw [hx] at he; cases he) hz hx
      by_cases hiu : i < u.g.length
      · refine hav i hiu ?_
        unfold Avail cpuBuf at *
        rwa [hcpu.1, hcpu.2, ltu.ext.nd hiu] at ha
      · have hnew : ∀ l, u'.cpu i = some l → False := fun l hl => hiu (by rw [hcpu.1] at hl; exact (h.iu.winv.cpu i l hl).1)
        have hnew' : (u'.dev i).isSome → False := fun hl => by
          obtain ⟨l, hl⟩ := Option.isSome_iff_exists.1 hl
          rw [hcpu.2] at hl
          exact hiu (h.iu.winv.dev i l hl).1
        rcases ha with ha | ha
        · refine .inl ?_
          unfold cpuBuf at *
          cases hl : u'.cpu i with
          | some l => exact absurd hl fun e => hnew l e
          | none =>
            rw [hl] at ha
            rw [hs.g.nd]
            simp only [Node.ren]
            cases hl' : w'.cpu (σ i) with
            | some l => rfl
            | none => exact ha
        · exact absurd ha.2 hnew'
    | .error e, .error e', _ =>
      rw [hx] at hnu; rw [hy] at hnw
      simp only at hnu hnw
      split at hnu
      · rename_i hat
        rw [if_pos hat] at hnw
        cases hnu; cases hnw
        exact .mk' iu iw hemb hav
      · cases hnu
  · rcases notLazy hz with ⟨a, rfl⟩ | ⟨a, rfl⟩
    · obtain ⟨ha, hmu, ou, hsu⟩ := next_materialize hnu
      obtain ⟨ha', hmw, ow, hsw⟩ := next_materialize hnw
      have ku := materialize_keeps hmu
      have kw := materialize_keeps hmw
      have aou : ArgsOK b u (.materialize a) := hlu.resolve_left fun ⟨e, he⟩ => by rw [hsu] at he; cases he
      have aow : ArgsOK b w (.materialize (σ a)) := hlw.resolve_left fun ⟨e, he⟩ => by
        have he : step b w (.materialize (σ a)) = .error e := he
        rw [hsw] at he; cases he
      refine .mk' iu iw (hemb.keeps ku kw) fun i hi hai => ?_
      rw [ku.1] at hi
      by_cases hci : u.g.ctx i = .const
      · obtain ⟨h1, h2⟩ := hcc i hci hi
        exact .inl (avail_const (b := b) iw.winv.wf h2 h1)
      · have hbl := Nat.lt_of_le_of_lt (base_le h.iu.winv.wf ha) ha
        by_cases hc : u.g.ctx (base u.g a) = .const
        · rw [materialize_const h.iu.winv.wf ha hmu hc] at hai
          exact hav i hi hai
        · obtain ⟨f1, t1, e1, _, s1⟩ := materialize_exact hb h.iu ha aou hmu hc
          have hb' := base_emb hemb.g h.iu.winv.wf ha
          obtain ⟨f2, t2, e2, a2, _⟩ := materialize_exact hb h.iw ha' aow hmw (by rw [hb', hemb.g.ctx]; exact fun e => hc (Ctx.ren_const.1 e))
          obtain ⟨⟨f2', t2'⟩, e2', hf, _⟩ := convert_emb hemb.g h.iu.winv.wf hbl _ e1
          rw [hb', e2'] at e2
          cases e2
          simp only at hf
          by_cases hif : i ∈ f1
          · exact a2 _ (by rw [hf]; exact List.mem_map_of_mem hif)
          · exact hav i hi (Avail.same ku.1 (s1 i hif hci) hai)
    · have ku : Keeps u u' := by
        rcases next_tolist hnu with rfl | ⟨l, hl⟩
        · exact .refl _
        · exact tolist_keeps hl
      have kw : Keeps w w' := by
        rcases next_tolist hnw with rfl | ⟨l, hl⟩
        · exact .refl _
        · exact tolist_keeps hl
      refine .mk' iu iw (hemb.keeps ku kw) fun i hi hai => ?_
      rw [ku.1] at hi
      refine hav i hi ?_
      rcases next_tolist hnu with rfl | ⟨l, hl⟩
      · exact hai
      · by_cases e : i = base u.g a
        · rw [e]; exact tolist_avail hl
        · exact Avail.same ku.1 (tolist_foot hl e) hai

theorem Amid.mirror {b : Backend V} (hb : Faithful b) {u w : World V} (h : Amid b u w ρ) : Mirror b u w ρ := by
  induction h with
  | start ρ h => exact .start hb h ρ
  | mine _ hin hlu hlw hnu hnw ih => exact ih.mine hb hin hlu hlw hnu hnw
  | other _ hl hs hn ih => exact ih.call hb hl hs hn
  | stopped _ hy ha hr hs ih =>
    obtain ⟨iw, hl⟩ := stopped_ok ih.iw hy ha hs
    exact ih.other iw hl fun i hi => (Bwd.Stopped.bstep _ ih.iw.winv.wf ih.iw.nn ih.iw.gs hy ha hs).2 _ (hr i hi)

theorem strided_emb (b : Backend V) {u w : World V} (hw : WF u.g) (h : WEmb ρ u w) {a : Nat} (ha : a < u.g.length) : strided b w (ρ a) = strided b u a := by
  have hbl := Nat.lt_of_le_of_lt (base_le hw ha) ha
  unfold strided position value
  rw [base_emb h.g hw ha, den_emb b.A h.g hw hbl, h.g.shape, h.g.strides, h.g.offset]

end Whale
