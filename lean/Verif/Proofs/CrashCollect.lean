import Verif.Spec.CrashCollect
import Verif.Proofs.CollectSim
import Verif.Proofs.CrashGpu
/-
Garbage collection is invisible also in programs whose `materialize` is interrupted.
-/
namespace Whale
open Mat Hist Algo
variable {V : Type} {P : Nat → Prop} {N : Nat} {w0 : World V}

/-- What every history keeps, whatever the arrays contain. -/
structure Core (w : World V) : Prop where
  wf : WF w.g
  nn : NN w.g
  gs : GradShapes w

theorem materializeF_same {b : Backend V} : ∀ (fuel : Nat) {w w' : World V} {a : Nat}, materializeF b fuel w a = .ok w' → SameArrays w w' := by
  intro fuel
  induction fuel with
  | zero => intro w w' a h; cases h
  | succ fuel ih =>
    intro w w' a h
    unfold materializeF at h
    split at h
    · cases h; exact ⟨rfl, rfl⟩
    split at h
    · split at h
      · exact ih h
      · cases h
    · obtain ⟨ft, _, h⟩ := except_bind_ok h
      obtain ⟨ss, _, h⟩ := except_bind_ok h
      have := runFuncs_same h
      exact ⟨this.1, this.2⟩

theorem materialize_same {b : Backend V} {w w' : World V} {a : Nat} (h : materialize b w a = .ok w') : SameArrays w w' := materializeF_same _ h

theorem tolist_same {b : Backend V} {w : World V} {a : Nat} {p : Nested V × World V} (h : tolist b w a = .ok p) : SameArrays w p.2 := by
  unfold tolist at h
  obtain ⟨w1, h1, h2⟩ := except_bind_ok h
  have : SameArrays w w1 := by
    unfold ensureCpu at h1
    split at h1
    · cases h1; exact ⟨rfl, rfl⟩
    · split at h1
      · split at h1
        · cases h1; exact ⟨rfl, rfl⟩
        · cases h1
      · cases h1
  split at h2
  · obtain ⟨q, _, h4⟩ := except_bind_ok h2
    cases h4; exact this
  · cases h2

theorem materialize_footX {b : Backend V} {w w' : World V} (h : WF w.g) {a : Nat} (ha : a < w.g.length) (hok : ArgsOK b w (.materialize a)) (hm : materialize b w a = .ok w') {i : Nat}
    (hi : ¬ Reach w.g a i) : SameAt w w' i := by
  have hw := h
  obtain ⟨hns, _, _⟩ := hok
  obtain ⟨fuel', e⟩ := materializeF_base (b := b) hw ha (a + 1) (by omega)
  unfold materialize at hm
  rw [e] at hm
  have hbl := Nat.lt_of_le_of_lt (base_le hw ha) ha
  have hbb := base_base hw ha
  have hrb := base_reach hw ha
  unfold materializeF at hm
  split at hm
  · cases hm; exact .refl ..
  rename_i hnc
  simp only [hbb, Bool.false_eq_true, if_false] at hm
  have hc : w.g.ctx (base w.g a) ≠ .const := fun e => hnc (by rw [e]; rfl)
  obtain ⟨funcs, t, e, hnd, ⟨p, hp⟩, hord, htg, hreach⟩ := convert_good hw hbl hns hbb hc
  obtain ⟨scheds, es, hl, hps⟩ := schedAll_ok (isGpu := b.isGpu) htg funcs (fun _ h => h)
  have hr := convert_refs hw hbl hns e
  have hfr : ∀ f ∈ funcs, Reach w.g (base w.g a) f := by
    obtain ⟨funcs', t', e', _, _, _, hent⟩ := convert_ok hw hbl hns hbb
    rw [e] at e'; cases e'; exact fun f hf => (hent f hf).1
  simp only [e, es, bind, Except.bind] at hm
  have hmap : (funcs.zip scheds).map (·.1) = funcs := by apply List.map_fst_zip; omega
  suffices hs : _ by
    have hs' := runFuncs_foot (i := i) hm hs
    exact ⟨hs'.1, hs'.2⟩
  intro q hq
  have hqf : q.1 ∈ funcs := by rw [← hmap]; exact List.mem_map_of_mem hq
  obtain ⟨_, _, F, hF, hE, hrefs⟩ := htg.entry q.1 hqf
  refine ⟨F, hF, hE.buffer, fun hm => hi ?_, fun d hd => ?_⟩
  · have h1 := hrb.trans (hfr q.1 hqf)
    rcases List.mem_cons.1 hm with rfl | hm
    · exact h1
    · rcases List.mem_append.1 hm with hm | hm
      · exact h1.trans (hr _ F hF i (mem_refs.2 (.inr (mem_dedup.1 hm))))
      · exact h1.trans (hr _ F hF i (mem_refs.2 (.inl (mem_dedup.1 hm))))
  · obtain ⟨_, _, D, hD, hED, _⟩ := htg.entry d (hrefs d (mem_dedup.1 hd)).1
    exact ⟨D, hD, hED.buffer⟩



theorem cl_stepX {b : Backend V} {w : World V} (hi0 : Core w) (h : WCl P N w0 w) {c : Call V} (hc : ∀ a ∈ c.arrays, P a) (hok : ArgsOK b w c) :
    Post (fun r => (∀ i, r.1 = .arr i → P i) ∧ WCl P N w0 r.2) (step b w c) := by
  unfold step
  split
  case isFalse => exact Post.error
  rename_i hin
  have hcl := h.toCl
  cases c <;> simp only [Call.arrays, List.mem_cons, List.not_mem_nil, or_false, forall_eq, forall_eq_or_imp] at hc hin <;> simp only [exec1]
  case array v => exact h.madeE (cl_array hcl)
  case arange n => exact h.madeE (cl_array hcl)
  case full s v => exact h.made (cl_const hcl)
  case fullLike a v => exact h.made (cl_const hcl)
  case onesLike a => exact h.made (cl_const hcl)
  case zerosLike a => exact h.made (cl_const hcl)
  case un op a => exact h.made (cl_unary hcl hc)
  case bin op x y => exact h.madeE (cl_binary hcl hc.1 hc.2)
  case binScalar op x v =>
    have h1 : PA P N (ND.constScalar b.A w.g v) := cl_const hcl
    exact h.madeE (cl_binary h1.2 hc h1.1)
  case sum a ax kd => exact h.madeE (cl_sum hcl hc)
  case getitem a s => exact h.madeE (cl_getitem hcl hc)
  case broadcastTo a s => exact h.made (cl_broadcastTo hcl hc)
  case reshape a s => exact h.madeE (cl_reshape hcl hc)
  case T a => exact h.madeE (cl_T hcl hc)
  case transpose a s => exact h.madeE (cl_transpose hcl hc)
  case contiguous a => exact h.made (cl_contiguous hcl hc)
  case pad a d x y => exact h.madeE (cl_pad hcl hc)
  case dilate a d s => exact h.madeE (cl_dilate hcl hc)
  case materialize a =>
    intro r hr
    cases e : materialize b w a with
    | error x => rw [e] at hr; cases hr
    | ok w' =>
      rw [e] at hr; cases hr
      have hm := materialize_same e
      refine ⟨by simp, by rw [hm.1]; exact hcl, by rw [hm.2]; exact h.grd, fun i hi => ?_⟩
      have := materialize_footX hi0.wf hin hok e (i := i) (fun hr => hi (hcl.reach hi0.wf hin hc hr))
      rw [this.1, this.2, hm.2]; exact h.out i hi
  case tolist a =>
    intro r hr
    cases ht : tolist b w a with
    | error e => rw [ht] at hr; cases hr
    | ok p =>
      rw [ht] at hr; cases hr
      have hm := tolist_same ht
      refine ⟨by simp, by rw [hm.1]; exact hcl, by rw [hm.2]; exact h.grd, fun i hi => ?_⟩
      have := tolist_foot (l := p.1) (w' := p.2) ht (i := i) (fun he => hi (he ▸ hcl.reach hi0.wf hin hc (base_reach hi0.wf hin)))
      rw [this.1, this.2, hm.2]; exact h.out i hi
  case backward a =>
    intro r hr
    cases hbk : Bwd.backward b.A w a with
    | error e => rw [hbk] at hr; cases hr
    | ok w' =>
      rw [hbk] at hr; cases hr
      exact ⟨by simp, cl_backward hi0.wf hi0.nn hi0.gs h hin hc w' hbk⟩
  case grad a =>
    refine Post.pure ⟨fun i he => ?_, h⟩
    cases hg : w.grad a with
    | none => simp only [hg] at he; cases he
    | some k => simp only [hg, Out.arr.injEq] at he; subst he; exact h.grd _ _ hc hg
  case clearGrad a =>
    refine Post.pure ⟨by simp, hcl, fun i k hp hk => ?_, fun i hi => ?_⟩
    · simp only at hk
      split at hk
      · cases hk
      · exact h.grd i k hp hk
    · have hne : i ≠ a := fun e => hi (e ▸ hc)
      simpa [hne] using h.out i hi
  case setGrad a k =>
    refine Post.pure ⟨by simp, hcl, fun i k' hp hk => ?_, fun i hi => ?_⟩
    · simp only at hk
      split at hk
      · cases hk; exact hc.2
      · exact h.grd i k' hp hk
    · have hne : i ≠ a := fun e => hi (e ▸ hc.1)
      simpa [hne] using h.out i hi
  case reset => exact Post.pure ⟨by simp, hcl, h.grd, h.out⟩

theorem live_wclX {w : World V} (hi : Core w) (R : List Nat) : WCl (fun i => Live w R i ∨ w.g.length ≤ i) w.g.length w w := by
  refine ⟨⟨fun _ h => .inr h, Nat.le_refl _, fun j hj hp x hx => ?_⟩, fun j k hp hk => ?_, fun _ _ => ⟨rfl, rfl, rfl⟩⟩
  · exact .inl (.input (hp.resolve_right (by omega)) hx)
  · have := (hi.gs j k hk).1
    exact .inl (.grad (hp.resolve_right (by omega)) hk)

theorem agree_stepX {b : Backend V} {w0 w v : World V} (hi : Core w) (h : Agree P w v) (hc : WCl P N w0 w) {c : Call V} (hP : ∀ a ∈ c.arrays, P a)
    (hok : ∀ a, c = .materialize a → NoScalarReshape w.g (base w.g a)) : RelE (AgreeO P) (step b w c) (step b v c) := by
  have hg : v.g = w.g := by rw [h.same]
  have hcl := hc.toCl
  unfold step
  rw [hg]
  split
  case isFalse => rfl
  rename_i hin
  cases c <;> simp only [Call.arrays, List.mem_cons, List.not_mem_nil, or_false, forall_eq, forall_eq_or_imp] at hP hin <;> simp only [exec1, hg]
  case array => exact agree_madeE h _
  case arange => exact agree_madeE h _
  case full => exact agree_made h _
  case fullLike => exact agree_made h _
  case onesLike => exact agree_made h _
  case zerosLike => exact agree_made h _
  case un => exact agree_made h _
  case bin => exact agree_madeE h _
  case binScalar => exact agree_madeE h _
  case sum => exact agree_madeE h _
  case getitem => exact agree_madeE h _
  case broadcastTo => exact agree_made h _
  case reshape => exact agree_madeE h _
  case T => exact agree_madeE h _
  case transpose => exact agree_madeE h _
  case contiguous => exact agree_made h _
  case pad => exact agree_madeE h _
  case dilate => exact agree_madeE h _
  case materialize a =>
    exact (agree_materialize h hi.wf hin (hok a rfl) (fun i hr => hcl.reach hi.wf hin hP hr)).bind fun w1 v1 h1 _ => ⟨rfl, h1⟩
  case tolist a =>
    exact (agree_tolist h (hcl.reach hi.wf hin hP (base_reach hi.wf hin))).bind fun p q h1 _ => ⟨congrArg Out.list h1.1, h1.2⟩
  case backward a =>
    exact (agree_backward h hi.wf hi.nn hi.gs hc hin hP).bind fun w1 v1 h1 _ => ⟨rfl, h1⟩
  case grad a =>
    rw [h.grad _ hP]
    exact ⟨rfl, h⟩
  case clearGrad a =>
    refine ⟨rfl, ?_, h.cpu, h.dev, fun i hi => ?_, h.ev⟩
    · rw [h.same]
    · simp only; rw [h.grad i hi]
  case setGrad a k =>
    refine ⟨rfl, ?_, h.cpu, h.dev, fun i hi => ?_, h.ev⟩
    · rw [h.same]
    · simp only; rw [h.grad i hi]
  case reset =>
    refine ⟨rfl, ?_, h.cpu, h.dev, h.grad, h.ev⟩
    rw [h.same]

/-! #### interrupted calls -/

/-- The arrays one function of a call works on are among those the requested array was computed from. -/
theorem plan_refs {g : Graph V} (hw : WF g) {a : Nat} (ha : a < g.length) (hns : NoScalarReshape g a) (hv : (g.ctx a).op.isView = false) (hc : (g.ctx a).op.isConst = false) {isGpu : Bool}
    {funcs : List Nat} {t : Tbl} {scheds : List Schedule} (e : Algo.convert g a = .ok (funcs, t)) (es : schedAll isGpu t funcs = .ok scheds) :
    ∀ q ∈ funcs.zip scheds, ∃ F, t q.1 = some F ∧ F.outBuffer = q.1 ∧ (∀ i ∈ q.1 :: ((args F.expr).1 ++ (args F.expr).2), Reach g a i) ∧ ∀ d ∈ (args F.expr).2, ∃ D, t d = some D ∧ D.outBuffer = d := by
  have hcc : g.ctx a ≠ .const := fun e => by rw [e] at hc; cases hc
  obtain ⟨funcs', t', e', hnd, _, hord, htg, hfr⟩ := convert_good hw ha hns hv hcc
  rw [e] at e'; cases e'
  have hr := convert_refs hw ha hns e
  intro q hq
  have hqf : q.1 ∈ funcs := (List.of_mem_zip hq).1
  obtain ⟨_, _, F, hF, hE, hrefs⟩ := htg.entry q.1 hqf
  refine ⟨F, hF, hE.buffer, fun i hm => ?_, fun d hd => ?_⟩
  · have h1 := hfr q.1 hqf
    rcases List.mem_cons.1 hm with rfl | hm
    · exact h1
    · rcases List.mem_append.1 hm with hm | hm
      · exact h1.trans (hr _ F hF i (mem_refs.2 (.inr (mem_dedup.1 hm))))
      · exact h1.trans (hr _ F hF i (mem_refs.2 (.inl (mem_dedup.1 hm))))
  · obtain ⟨_, _, D, hD, hED, _⟩ := htg.entry d (hrefs d (mem_dedup.1 hd)).1
    exact ⟨D, hD, hED.buffer⟩

theorem agree_alloc {b : Backend V} {w v : World V} (h : Agree P w v) {i : Nat} (hp : P i) : RelE (Agree P) (alloc b w i) (alloc b v i) := by
  unfold alloc
  rw [h.dev _ hp, h.bufLen]
  split
  · exact h
  · split
    · rfl
    · refine ⟨?_, h.cpu, upd_agree h.dev _ _, h.grad, unfreed_snoc h.ev _⟩
      rw [h.same]

theorem agree_invokePart {b : Backend V} {w w' v : World V} (h : Agree P w v) {sch : Schedule} {K : Kernel} {out : Nat} {ins : List Nat} (hP : ∀ i ∈ out :: ins, P i)
    (hi : InvokePart b w sch K out ins w') : ∃ v', InvokePart b v sch K out ins v' ∧ Agree P w' v' := by
  have hzip : ∀ p ∈ (out :: ins).zipIdx, P p.1 := fun p hp => hP _ ((List.mem_zipIdx' hp).2 ▸ List.getElem_mem _)
  cases hi with
  | filling k hg => exact ⟨_, .filling k hg, agree_fills _ h fun i hm => hP i (List.mem_of_mem_take hm)⟩
  | @running w1 o is ws ws' hg e ho hin hr hpre =>
    subst e
    have hv := agree_fills (A := b.A) (out :: ins) h hP
    have ht : ((out :: ins).foldl (fillCpu b.A) v).tick = ((out :: ins).foldl (fillCpu b.A) w).tick := by rw [hv.same]
    refine ⟨_, .running hg rfl (by rw [hv.cpuBuf (hP out (by simp))]; exact ho) (by rw [mapM_opt_congr (fun i hi => hv.cpuBuf (hP i (by simp [hi])))]; exact hin) (by rw [ht]; exact hr) hpre, ?_⟩
    refine ⟨?_, upd_agree hv.cpu _ _, hv.dev, hv.grad, hv.ev⟩
    rw [ht, hv.same]
  | copying k hg hf =>
    have rel := agree_toDevs (b := b) ((out :: ins).zipIdx.take k) h (fun p hp => hzip p (List.mem_of_mem_take hp))
    rw [hf] at rel
    obtain ⟨v1, e1, a1⟩ := rel.ok
    exact ⟨v1, .copying k hg e1, a1⟩
  | @allocating w1 _ q k hg hf hq hal =>
    have rel := agree_toDevs (b := b) ((out :: ins).zipIdx.take k) h (fun p hp => hzip p (List.mem_of_mem_take hp))
    rw [hf] at rel
    obtain ⟨v1, e1, a1⟩ := rel.ok
    have rel2 := agree_alloc (b := b) a1 (i := q.1) (hzip q (List.mem_of_getElem? hq))
    rw [hal] at rel2
    obtain ⟨v2, e2, a2⟩ := rel2.ok
    exact ⟨v2, .allocating k hg e1 hq e2, a2⟩
  | @launched w1 o is ws ws' hg hf ho hin hr hpre =>
    have rel := agree_toDevs (b := b) ((out :: ins).zipIdx) h hzip
    rw [hf] at rel
    obtain ⟨v1, e1, hv⟩ := rel.ok
    have ht : v1.tick = w1.tick := by rw [hv.same]
    refine ⟨_, .launched hg e1 (by rw [hv.dev out (hP out (by simp))]; exact ho) (by rw [mapM_opt_congr (fun i hi => hv.dev i (hP i (by simp [hi])))]; exact hin) (by rw [ht]; exact hr) hpre, ?_⟩
    refine ⟨?_, hv.cpu, upd_agree hv.dev _ _, hv.grad, unfreed_snoc hv.ev _⟩
    rw [ht, hv.same]

theorem outBufs_id {t : Tbl} {F : Func} {outs : List Nat} (hds : ∀ d ∈ (args F.expr).2, ∃ D, t d = some D ∧ D.outBuffer = d) (h : outBufs t (args F.expr).2 = .ok outs) : outs = (args F.expr).2 := by
  have houts : outBufs t (args F.expr).2 = .ok ((args F.expr).2.map id) := by
    apply mapM_ok
    intro d hd
    obtain ⟨D, hD, hDb⟩ := hds d hd
    simp only [hD, pure, Except.pure, hDb, id]
  rw [h, List.map_id] at houts
  exact Except.ok.inj houts

/-- What one function of a call needs to know of the arrays it works on. -/
def Within (t : Tbl) (P : Nat → Prop) (q : Nat × Schedule) : Prop :=
  ∃ F, t q.1 = some F ∧ F.outBuffer = q.1 ∧ (∀ i ∈ q.1 :: ((args F.expr).1 ++ (args F.expr).2), P i) ∧ ∀ d ∈ (args F.expr).2, ∃ D, t d = some D ∧ D.outBuffer = d

theorem Agree.upd {w v : World V} (h : Agree P w v) (n : Nat) (c : List (Key × Kernel)) (k : Key → Nat) : Agree P { w with tmp := n, cache := c, hits := k } { v with tmp := n, cache := c, hits := k } :=
  ⟨by rw [h.same], h.cpu, h.dev, h.grad, h.ev⟩

theorem agree_runPart {b : Backend V} {t : Tbl} {fuel : Nat} {p : Nat × Schedule} {w w' v : World V} {d : Option Nat} (h : Agree P w v) (ht : Within t P p) (hp : RunPart b t fuel w p d w') :
    ∃ v', RunPart b t fuel v p d v' ∧ Agree P w' v' ∧ ∀ x, d = some x → P x := by
  obtain ⟨F0, hF0, hob, hni, hds⟩ := ht
  have hg : v.g = w.g := by rw [h.same]
  have hc : v.cache = w.cache := by rw [h.same]
  have htm : v.tmp = w.tmp := by rw [h.same]
  have hh : v.hits = w.hits := by rw [h.same]
  cases hp with
  | before n => exact ⟨_, .before n, ⟨by rw [h.same], h.cpu, h.dev, h.grad, h.ev⟩, by simp⟩
  | @hit F outs key K _ hF ho hk hl hi =>
    rw [hF0] at hF; cases hF
    rw [outBufs_id hds ho] at hi
    rw [← hob] at hni
    obtain ⟨v', e, a⟩ := agree_invokePart (h.upd w.tmp w.cache fun k => if k = key then w.hits k + 1 else w.hits k) hni hi
    rw [← hh, ← hc, ← htm] at e
    exact ⟨v', .hit hF0 ho (by rw [hg]; exact hk) (by rw [hc]; exact hl) (by rw [outBufs_id hds ho]; exact e), a, fun x hx => by cases hx; exact hni _ (by simp)⟩
  | @miss F outs key K n _ hF ho hk hl hcg hi =>
    rw [hF0] at hF; cases hF
    rw [outBufs_id hds ho] at hi
    rw [← hob] at hni
    obtain ⟨v', e, a⟩ := agree_invokePart (h.upd n (w.cache ++ [(key, K)]) fun k => if k = key then 0 else w.hits k) hni hi
    rw [← hh, ← hc] at e
    exact ⟨v', .miss hF0 ho (by rw [hg]; exact hk) (by rw [hc]; exact hl) (by rw [hg, htm]; exact hcg) (by rw [outBufs_id hds ho]; exact e), a, fun x hx => by cases hx; exact hni _ (by simp)⟩

theorem agree_interrupted {b : Backend V} {w w' v : World V} {a : Nat} {d : Option Nat} (h : Agree P w v) (hw : WF w.g) (hi : Interrupted b w a d w') : a < w.g.length → NoScalarReshape w.g (base w.g a) →
    (∀ i, Reach w.g a i → P i) → ∃ v', Interrupted b v a d v' ∧ Agree P w' v' ∧ ∀ x, d = some x → P x := by
  have hg : v.g = w.g := by rw [h.same]
  induction hi with
  | early => exact fun _ _ _ => ⟨v, .early, h, by simp⟩
  | @view a x rest d w' hc hv hx _ ih =>
    intro ha hns hP
    have hlt := hw.inputs_lt ha x (by simp [hx])
    obtain ⟨v', e, k⟩ := ih (by omega) (by rw [← base_view hw ha hv hx]; exact hns) (fun i hr => hP i ((Reach.step .refl (by rw [hx]; simp)).trans hr))
    exact ⟨v', .view (by rw [hg]; exact hc) (by rw [hg]; exact hv) (by rw [hg]; exact hx) e, k⟩
  | @kernel a d funcs t scheds pre post p w1 w' hc hv e es hsp hpre hpart =>
    intro ha hns hP
    rw [base_nonview hv] at hns
    have hall : ∀ q ∈ funcs.zip scheds, Within t P q := fun q hq => by
      obtain ⟨F, h1, h2, h3, h4⟩ := plan_refs hw ha hns hv hc e es q hq
      exact ⟨F, h1, h2, fun i hi => hP i (h3 i hi), h4⟩
    have hlog : v.log = w.log := by rw [h.same]
    have rel := agree_runFuncs (b := b) (t := t) (fuel := a + 2) pre (w := { w with log := w.log ++ (funcs.zip scheds).filterMap (plan1 w.g t (a + 2)) })
      (v := { v with log := v.log ++ (funcs.zip scheds).filterMap (plan1 v.g t (a + 2)) }) ⟨by rw [hlog, hg, h.same], h.cpu, h.dev, h.grad, h.ev⟩ (fun q hq => hall q (by rw [hsp]; simp [hq]))
    rw [hpre] at rel
    obtain ⟨v1, e1, a1⟩ := rel.ok
    obtain ⟨v', e2, a2, hx⟩ := agree_runPart a1 (hall p (by rw [hsp]; simp)) hpart
    exact ⟨v', .kernel (by rw [hg]; exact hc) (by rw [hg]; exact hv) (by rw [hg]; exact e) es hsp e1 e2, a2, hx⟩

theorem alloc_foot {b : Backend V} {w w' : World V} {x i : Nat} (hi : i ≠ x) (h : alloc b w x = .ok w') : SameAt w w' i := by
  unfold alloc at h
  split at h
  · cases h; exact .refl ..
  · split at h
    · cases h
    · cases h; exact ⟨rfl, by simp [upd, hi]⟩

theorem toDevs_foot {b : Backend V} {i : Nat} (l : List (Nat × Nat)) : ∀ {w w' : World V}, (∀ p ∈ l, i ≠ p.1) → l.foldlM (toDev b) w = .ok w' → SameAt w w' i := by
  induction l with
  | nil => intro w w' _ h; cases h; exact .refl ..
  | cons p l ih =>
    intro w w' hl h
    rw [List.foldlM_cons] at h
    obtain ⟨w2, h2, h3⟩ := except_bind_ok h
    exact (toDev_foot (hl p (by simp)) h2).trans (ih (fun q hq => hl q (by simp [hq])) h3)

theorem fills_foot {A : Scalar V} {i : Nat} (l : List Nat) : ∀ (w : World V), i ∉ l → SameAt w (l.foldl (fillCpu A) w) i := by
  induction l with
  | nil => intro w _; exact .refl ..
  | cons x l ih =>
    intro w hl
    exact (fillCpu_foot (fun e => hl (by simp [e]))).trans (ih _ (fun e => hl (by simp [e])))

theorem invokePart_foot {b : Backend V} {w w' : World V} {sch : Schedule} {K : Kernel} {out : Nat} {ins : List Nat} {i : Nat} (hi : i ∉ out :: ins) (h : InvokePart b w sch K out ins w') : SameAt w w' i := by
  have hio : i ≠ out := fun e => hi (by simp [e])
  have hzip : ∀ p ∈ (out :: ins).zipIdx, i ≠ p.1 := fun p hp e => hi (by rw [e]; exact (List.mem_zipIdx' hp).2 ▸ List.getElem_mem _)
  cases h with
  | filling k _ => exact fills_foot _ w fun hm => hi (List.mem_of_mem_take hm)
  | running _ e _ _ _ _ => subst e; exact (fills_foot _ w hi).trans ⟨by simp [upd, hio], rfl⟩
  | copying k _ hf => exact toDevs_foot _ (fun p hp => hzip p (List.mem_of_mem_take hp)) hf
  | allocating k _ hf hq hal => exact (toDevs_foot _ (fun p hp => hzip p (List.mem_of_mem_take hp)) hf).trans (alloc_foot (hzip _ (List.mem_of_getElem? hq)) hal)
  | launched _ hf _ _ _ _ => exact (toDevs_foot _ hzip hf).trans ⟨rfl, by simp [upd, hio]⟩

theorem interrupted_foot {b : Backend V} {w w' : World V} {a i : Nat} {d : Option Nat} (hw : WF w.g) (h : Interrupted b w a d w') : a < w.g.length → NoScalarReshape w.g (base w.g a) →
    ¬ Reach w.g a i → SameAt w w' i := by
  induction h with
  | early => exact fun _ _ _ => .refl ..
  | @view a x rest d w' hc hv hx _ ih =>
    intro ha hns hP
    have hlt := hw.inputs_lt ha x (by simp [hx])
    exact ih (by omega) (by rw [← base_view hw ha hv hx]; exact hns) (fun hr => hP ((Reach.step .refl (by rw [hx]; simp)).trans hr))
  | @kernel a d funcs t scheds pre post p w1 w' hc hv e es hsp hpre hpart =>
    intro ha hns hP
    rw [base_nonview hv] at hns
    have hall := plan_refs hw ha hns hv hc e es
    have h1 := runFuncs_foot (i := i) hpre (fun q hq => by
      obtain ⟨F, h1, h2, h3, h4⟩ := hall q (by rw [hsp]; simp [hq])
      exact ⟨F, h1, h2, fun hi => hP (h3 i hi), h4⟩)
    obtain ⟨F0, hF0, hob, hni, hds⟩ := hall p (by rw [hsp]; simp)
    have h2 : SameAt w1 w' i := by
      cases hpart with
      | before n => exact .refl ..
      | hit hF ho _ _ hi =>
        rw [hF0] at hF; cases hF
        rw [outBufs_id hds ho, hob] at hi
        have := invokePart_foot (i := i) (fun hm => hP (hni i hm)) hi
        exact ⟨this.1, this.2⟩
      | miss hF ho _ _ _ hi =>
        rw [hF0] at hF; cases hF
        rw [outBufs_id hds ho, hob] at hi
        have := invokePart_foot (i := i) (fun hm => hP (hni i hm)) hi
        exact ⟨this.1, this.2⟩
    exact (show SameAt w w1 i from ⟨h1.1, h1.2⟩).trans h2

end Whale
