import Verif.Proofs.Threads
/-
Proofs for C73: the invariant is kept by every step of a program with threads.
-/
namespace Whale
open Kern Codegen Mat Hist Thr
variable {V : Type}

theorem begin_base {b : Backend V} {arr : Nat} {w : World V} (h : WF w.g) {a : Nat} (ha : a < w.g.length) : ∀ fuel, a < fuel →
    ∃ fuel', begin_ b arr fuel w a = begin_ b arr (fuel' + 1) w (base w.g a) := by
  induction a using Nat.strongRecOn with
  | ind a ih =>
    intro fuel hf
    obtain ⟨fuel, rfl⟩ : ∃ k, fuel = k + 1 := ⟨fuel - 1, by omega⟩
    cases hv : (w.g.ctx a).op.isView with
    | false => rw [base_nonview hv]; exact ⟨fuel, rfl⟩
    | true =>
      obtain ⟨x, hx⟩ := view_input hv h ha
      have hlt := h.inputs_lt ha x (by rw [hx]; simp)
      obtain ⟨f', e⟩ := ih x hlt (by omega) fuel (by omega)
      refine ⟨f', ?_⟩
      rw [base_view h ha hv hx, ← e]
      conv => lhs; unfold begin_
      simp only [view_not_const hv, hv, hx]; rfl

/-- A `materialize` call begins. -/
theorem begin_ok {b : Backend V} {D : List Nat} {w : World V} (h : InvX b D w) {a : Nat} (ha : a < w.g.length) (hns : NoScalarReshape w.g (base w.g a)) :
    ∃ j, begin_ b a (a + 1) w a = .ok (j, { w with log := w.log ++ launchLog b.isGpu w.g a }) ∧ j.arr = a ∧ j.g = w.g ∧ JobOK b D { w with log := w.log ++ launchLog b.isGpu w.g a } j := by
  have hwf : WF w.g := h.inv.winv.wf
  obtain ⟨f', e⟩ := begin_base (b := b) (arr := a) hwf ha (a + 1) (by omega)
  have hv := base_base hwf ha
  have hbl := Nat.lt_of_le_of_lt (base_le hwf ha) ha
  rw [e, launchLog_base hwf ha]
  by_cases hc : w.g.ctx (base w.g a) = .const
  · have hl : launchLog b.isGpu w.g (base w.g a) = [] := by
      unfold launchLog launchLogF
      rw [hc]; rfl
    rw [hl, List.append_nil]
    refine ⟨{ arr := a, a := base w.g a, g := w.g, t := fun _ => none, todo := [], cur := none }, ?_, rfl, rfl, ⟨.refl _, ha, rfl, ⟨fun _ => False, [base w.g a], ⟨fun f hf => hf.elim⟩, by simp, by simp,
      (by intro _ _ _ _ F hF; cases hF), fun d hd => ?_, by simp⟩, (fun o ws he => by cases he), fun K n hf => by cases hf⟩⟩
    · unfold begin_; rw [hc]; rfl
    · simp only [List.mem_singleton] at hd
      subst hd
      exact avail_const (b := b) (w := w.clean D) hwf hbl hc
  · have hcop := isConst_false hwf hbl hc
    obtain ⟨funcs, t, e', hnd, ⟨pre, hpre⟩, hord, htg, _⟩ := convert_good hwf hbl hns hv hc
    obtain ⟨scheds, es, hl, hps⟩ := schedAll_ok (isGpu := b.isGpu) htg funcs (fun _ h => h)
    have hmap : (funcs.zip scheds).map (·.1) = funcs := by
      apply List.map_fst_zip; omega
    refine ⟨{ arr := a, a := base w.g a, g := w.g, t := t, todo := funcs.zip scheds, cur := none }, ?_, rfl, rfl, ⟨.refl _, ha, rfl, ⟨(· ∈ funcs), [], htg,
      fun p hp => ⟨by rw [← hmap]; exact List.mem_map_of_mem hp, hps p hp⟩, fun p hp q hq => List.mem_append_right _ ?_, by rw [hmap]; simpa using hord, by simp, by rw [hmap, hpre]; simp⟩,
      (fun o ws he => by cases he), fun K n hf => by cases hf⟩⟩
    · rw [launchLog_nonview (isGpu := b.isGpu) hcop hv e' es]
      unfold begin_
      simp only [hcop, hv, e', es, bind, Except.bind, pure, Except.pure]
      rfl
    · rw [launchLog_nonview (isGpu := b.isGpu) hcop hv e' es]
      exact List.mem_filterMap.2 ⟨p, hp, hq⟩

/-- The invariant of programs with threads; `es` is what has happened so far. -/
structure InvD (b : Backend V) (D : List Nat) (es : List (TEvent V)) (x : TWorld V) : Prop where
  inv : InvX b D x.w
  nc : NoCollision x.w.log
  jobs : ∀ i j, x.job i = some j → JobOK b D x.w j
  ret : ∀ i a, TEvent.returned i a ∈ es → a < x.w.g.length ∧ AvC D x.w (base x.w.g a)

theorem InvD.init (b : Backend V) : InvD b [] [] (Thr.init : TWorld V) :=
  ⟨.init b, (by intro p hp; cases hp), (by intro i j h; cases h), by simp⟩

/-- What has been computed stays, in any step. -/
theorem ret_later {b : Backend V} {D D' : List Nat} {es : List (TEvent V)} {w w' : World V} (hw : WF w.g) (l : TLater b D w D' w') (h : ∀ i a, TEvent.returned i a ∈ es → a < w.g.length ∧ AvC D w (base w.g a)) :
    ∀ i a, TEvent.returned i a ∈ es → a < w'.g.length ∧ AvC D' w' (base w'.g a) := by
  intro i a hm
  obtain ⟨h1, h2⟩ := h i a hm
  refine ⟨Nat.lt_of_lt_of_le h1 l.ext.length, ?_⟩
  rw [base_ext l.ext hw h1]
  exact l.avail _ (Nat.lt_of_le_of_lt (base_le hw h1) h1) h2

theorem TLater.of_cpu {b : Backend V} {D : List Nat} {w w' : World V} (he : Ext w.g w'.g) (hw : WF w'.g) (hc : w'.cpu = w.cpu) : TLater b D w D w' := by
  refine ⟨he, hw, fun i hi ha => ?_, fun o l _ hl => ⟨l, by rw [hc]; exact hl, rfl, fun _ h => h⟩⟩
  unfold AvC cpuBuf World.clean at *
  rw [hc]
  simp only at ha ⊢
  rw [he.nd hi]; exact ha

theorem madeE_log {w w' : World V} {p : Except Err (Nat × Graph V)} {o : Out V} (h : madeE w p = .ok (o, w')) : w'.log = w.log := by
  obtain ⟨r, g', _, rfl, rfl⟩ := madeE_eq h; rfl

theorem made_log {w w' : World V} {p : Nat × Graph V} {o : Out V} (h : made w p = .ok (o, w')) : w'.log = w.log := by
  obtain ⟨rfl, rfl⟩ := made_eq h; rfl

theorem exec1_log {b : Backend V} {w w' : World V} {c : Call V} {o : Out V} (hq : quiet c = true) (h : exec1 b w c = .ok (o, w')) : (c.isReset = false → w'.log = w.log) ∧ (c.isReset = true → w'.log = []) := by
  cases c <;> first
    | (cases hq; done)
    | exact ⟨fun _ => made_log h, fun h => by cases h⟩
    | exact ⟨fun _ => madeE_log h, fun h => by cases h⟩
    | (simp only [exec1] at h; cases h; exact ⟨fun _ => rfl, fun h => by cases h⟩)
    | (simp only [exec1] at h; cases h; exact ⟨fun h => (by cases h), fun _ => rfl⟩)

/-- Calls other than `materialize` leave the buffers alone. -/
theorem next_keeps {b : Backend V} (hg : b.isGpu = false) {D : List Nat} {w w' : World V} (h : InvX b D w) {c : Call V} (hm : c.isMat = false) (hl : Legal b w c) (hn : next b w c = some w') :
    w'.cpu = w.cpu ∧ (c.isReset = false → w'.log = w.log) ∧ (c.isReset = true → w'.log = []) := by
  unfold next at hn
  cases hs : step b w c with
  | error e =>
    rw [hs] at hn
    simp only at hn
    split at hn
    · cases hn
      refine ⟨rfl, fun _ => rfl, fun hr => ?_⟩
      cases c <;> cases hr
      unfold step at hs
      rw [if_pos (by simp [Call.arrays])] at hs
      cases hs
    · cases hn
  | ok p =>
    obtain ⟨o, w1⟩ := p
    rw [hs] at hn
    cases hn
    have ha : ArgsOK b w c := hl.resolve_left (by rintro ⟨e, he⟩; rw [hs] at he; cases he)
    unfold step at hs
    split at hs
    case isFalse => cases hs
    rename_i hin
    by_cases hq : quiet c = true
    · exact ⟨(exec1_keeps hq hs).1, exec1_log hq hs⟩
    · rcases notQuiet hq with ⟨a, rfl⟩ | ⟨a, rfl⟩ | ⟨a, rfl⟩
      · cases hm
      · simp only [exec1] at hs
        cases ht : tolist b w a with
        | error e => rw [ht] at hs; cases hs
        | ok p =>
          rw [ht] at hs
          cases hs
          rw [(tolist_cpu hg ht).1]
          exact ⟨rfl, fun _ => rfl, fun hr => by cases hr⟩
      · have hal := hin a (by simp [Call.arrays])
        have hgs : GradShapes w := h.inv.gs
        have hwf : WF w.g := h.inv.winv.wf
        obtain ⟨w2, order, e, r⟩ := backward_ok b.A hwf h.inv.nn hgs hal ha
        simp only [exec1, e] at hs
        cases hs
        have hrest := r.step.rest
        exact ⟨by rw [hrest], fun _ => by rw [hrest], fun hr => by cases hr⟩

theorem notMat_repaired {w : World V} {D : List Nat} {c : Call V} (h : c.isMat = false) : repaired w D c = D := by
  cases c <;> first | rfl | cases h

theorem mem_snoc_ret {es : List (TEvent V)} {e : TEvent V} {i a : Nat} (h : TEvent.returned i a ∈ es ++ [e]) (hn : ∀ i a, e ≠ .returned i a) : TEvent.returned i a ∈ es := by
  rcases List.mem_append.1 h with h | h
  · exact h
  · simp only [List.mem_singleton] at h; exact absurd h.symm (hn i a)

/-- The invariant is kept. -/
theorem TStepBy.inv {b : Backend V} (hb : Faithful b) (hg : b.isGpu = false) {D : List Nat} {es : List (TEvent V)} {x x' : TWorld V} {e : TEvent V} (h : InvD b D es x) (hs : TStep b x e x') :
    ∃ D', InvD b D' (es ++ [e]) x' ∧ TLater b D x.w D' x'.w := by
  have hwf : WF x.w.g := h.inv.inv.winv.wf
  have hlt : ∀ i, AvC D x.w i → i < x.w.g.length := fun i => h.inv.avLt
  cases hs with
  | @begins i a j w hi ha hargs e =>
    obtain ⟨j', e', harr, hgj, hj⟩ := begin_ok h.inv ha hargs.1
    rw [e] at e'
    cases e'
    have hl : TLater b D x.w D { x.w with log := x.w.log ++ launchLog b.isGpu x.w.g a } := .of_cpu (.refl _) hwf rfl
    refine ⟨D, ⟨⟨⟨⟨hwf, h.inv.inv.winv.nn, h.inv.inv.winv.cpu, h.inv.inv.winv.dev, fun k K hk => ?_, h.inv.inv.winv.ev⟩, h.inv.inv.nn, h.inv.inv.gs, False.elim⟩,
      ⟨h.inv.dirty.lt, h.inv.dirty.nonconst, h.inv.dirty.part, h.inv.dirty.nodev⟩⟩, hargs.2.1, fun i' j' hj' => ?_, fun i' a' hm => ?_⟩, hl⟩
    · obtain ⟨K0, n0, n, h1, h2⟩ := h.inv.inv.winv.cache k K hk
      exact ⟨K0, n0, n, List.mem_append_left _ h1, h2⟩
    · simp only [upd] at hj'
      split at hj'
      · cases hj'; exact hj
      · exact (h.jobs i' j' hj').later hl hlt (fun q hq => List.mem_append_left _ hq)
    · exact ret_later hwf hl h.ret i' a' (mem_snoc_ret hm (by simp))
  | @works i j j' w hi hf e =>
    obtain ⟨j1, w1, D', e', a, _⟩ := advance_ok hb hg h.inv h.nc (h.jobs i j hi)
    rw [e] at e'
    cases e'
    refine ⟨D', ⟨a.inv, by rw [a.log]; exact h.nc, fun i' j'' hj' => ?_, fun i' a' hm => ret_later hwf a.later h.ret i' a' (mem_snoc_ret hm (by simp))⟩, a.later⟩
    simp only [upd] at hj'
    split at hj'
    · cases hj'; exact a.ok
    · exact (h.jobs i' j'' hj').later a.later hlt (fun q hq => by rw [a.log]; exact hq)
  | @returns i j hi hf =>
    refine ⟨D, ⟨h.inv, h.nc, fun i' j' hj' => ?_, fun i' a' hm => ?_⟩, .of_cpu (.refl _) hwf rfl⟩
    · simp only at hj'
      split at hj'
      · cases hj'
      · exact h.jobs i' j' hj'
    · rcases List.mem_append.1 hm with hm | hm
      · exact h.ret i' a' hm
      · simp only [List.mem_singleton, TEvent.returned.injEq] at hm
        obtain ⟨rfl, rfl⟩ := hm
        have hj := h.jobs _ j hi
        obtain ⟨S, done, _, _, _, _, h5, h6⟩ := hj.ex
        unfold Job.finished at hf
        have hc : j.cur = none := by cases hc : j.cur <;> simp_all
        have ht : j.todo = [] := by cases ht : j.todo <;> simp_all
        rw [hc, ht] at h6
        refine ⟨Nat.lt_of_lt_of_le hj.lt hj.ext.length, ?_⟩
        rw [base_ext hj.ext (WF.of_ext hj.ext hwf) hj.lt, hj.base]
        exact h5 _ (by simpa using h6)
  | @raises i hi =>
    refine ⟨D, ⟨h.inv, h.nc, fun i' j' hj' => ?_, fun i' a' hm => h.ret i' a' (mem_snoc_ret hm (by simp))⟩, .of_cpu (.refl _) hwf rfl⟩
    simp only at hj'
    split at hj'
    · cases hj'
    · exact h.jobs i' j' hj'
  | @calls c w hm hr hl hn =>
    obtain ⟨hk1, hk2, hk3⟩ := next_keeps hg h.inv hm hl hn
    have ho := next_okX hb hg h.inv hl hn
    rw [notMat_repaired hm] at ho
    have hlat : TLater b D x.w D w := .of_cpu ho.2.ext ho.1.inv.winv.wf hk1
    refine ⟨D, ⟨ho.1, ?_, fun i' j' hj' => ?_, fun i' a' hm => ret_later hwf hlat h.ret i' a' (mem_snoc_ret hm (by simp))⟩, hlat⟩
    · cases hres : c.isReset with
      | true => rw [hk3 hres]; intro p hp; cases hp
      | false => rw [hk2 hres]; exact h.nc
    · have hres : c.isReset = false := by
        by_contra hne
        have hj0 : x.job i' = some j' := hj'
        rw [hr (by simpa using hne) i'] at hj0; cases hj0
      exact (h.jobs i' j' hj').later hlat hlt (fun q hq => by rw [hk2 hres]; exact hq)
  | @stops y w hy ha hs =>
    have ho := stopped_okX h.inv hy ha hs
    have hst := (hs.bstep b.A hwf h.inv.inv.nn h.inv.inv.gs hy ha).1
    have hrest := hst.rest
    have hlat : TLater b D x.w D w := .of_cpu ho.2.ext ho.1.inv.winv.wf (by rw [hrest])
    have hlog : w.log = x.w.log := by rw [hrest]
    refine ⟨D, ⟨ho.1, by rw [hlog]; exact h.nc, fun i' j' hj' => ?_, fun i' a' hm => ret_later hwf hlat h.ret i' a' (mem_snoc_ret hm (by simp))⟩, hlat⟩
    exact (h.jobs i' j' hj').later hlat hlt (fun q hq => by rw [hlog]; exact hq)

theorem TRunsBy.inv {b : Backend V} (hb : Faithful b) (hg : b.isGpu = false) {es : List (TEvent V)} {x : TWorld V} (h : TRuns b Thr.init es x) : ∃ D, InvD b D es x := by
  induction h with
  | refl => exact ⟨[], .init b⟩
  | step _ hs ih =>
    obtain ⟨D, hD⟩ := ih
    obtain ⟨D', h', _⟩ := hs.inv hb hg hD
    exact ⟨D', h'⟩

/-- A thread that goes on alone returns. -/
theorem finishes {b : Backend V} (hb : Faithful b) (hg : b.isGpu = false) : ∀ (r : Nat × Nat) (D : List Nat) (w : World V) (j : Job V), j.rest = r → InvX b D w → NoCollision w.log → JobOK b D w j →
    ∃ n j' w' D', alone b n j w = .ok (j', w') ∧ j'.finished = true ∧ j'.arr = j.arr ∧ InvX b D' w' ∧ JobOK b D' w' j' ∧ TLater b D w D' w' := by
  intro r
  induction r using (Prod.lex Nat.lt_wfRel Nat.lt_wfRel).wf.induction with
  | _ r ih =>
    intro D w j hr h hnc hj
    cases hf : j.finished with
    | true => exact ⟨0, j, w, D, rfl, hf, rfl, h, hj, ⟨.refl _, h.inv.winv.wf, fun _ _ h => h, fun o l _ hl => ⟨l, hl, rfl, fun _ h => h⟩⟩⟩
    | false =>
      obtain ⟨j1, w1, D1, e, a, hm⟩ := advance_ok hb hg h hnc hj
      obtain ⟨n, j2, w2, D2, e2, f2, a2, i2, k2, l2⟩ := ih j1.rest (by rw [← hr]; exact hm hf) D1 w1 j1 rfl a.inv (by rw [a.log]; exact hnc) a.ok
      refine ⟨n + 1, j2, w2, D2, ?_, f2, a2.trans a.arr, i2, k2, ⟨a.later.ext.trans l2.ext, l2.wf, fun i hi hav => l2.avail i (Nat.lt_of_lt_of_le hi a.later.ext.length) (a.later.avail i hi hav), ?_⟩⟩
      · simp only [alone, e, Except.bind]; exact e2
      · intro o l ho hl
        obtain ⟨l1, h1, h2, h3⟩ := a.later.better o l ho hl
        obtain ⟨l3, h4, h5, h6⟩ := l2.better o l1 (Nat.lt_of_lt_of_le ho a.later.ext.length) h1
        have hd := den_ext b.A a.later.ext a.later.wf ho
        refine ⟨l3, h4, h5.trans h2, fun k hk => ?_⟩
        have := h6 k (by rw [hd]; exact h3 k hk)
        rwa [hd] at this

/-! ### a thread that is not interrupted -/

theorem launch_invoke {b : Backend V} (hg : b.isGpu = false) {w w1 : World V} {sch : Schedule} {K : Kernel} {out : Nat} {ins : List Nat} {ws : List (Int × V)} {l : List V}
    (h : Thr.launch b w sch K out ins = .ok (ws, w1)) (hl : w1.cpu out = some l) : invoke b w sch K out ins = .ok { w1 with cpu := upd w1.cpu out (applyWrites l ws) } := by
  unfold Thr.launch at h
  unfold invoke
  simp only [bind, Except.bind, hg] at h ⊢
  by_cases h1 : out ∈ ins
  · simp only [if_pos h1] at h; cases h
  · by_cases h2 : K.params.length ≠ (out :: ins).length
    · simp only [if_neg h1, if_pos h2] at h; cases h
    · simp only [if_neg h1, if_neg h2, pure, Except.pure, Bool.false_eq_true, if_false] at h ⊢
      generalize (out :: ins).foldl (fillCpu b.A) w = wf at h ⊢
      cases hc : cpuBuf wf out with
      | none => simp only [hc] at h; cases h
      | some o =>
        cases hm : ins.mapM (cpuBuf wf) with
        | none => simp only [hc, hm] at h; cases h
        | some is =>
          simp only [hc, hm] at h ⊢
          cases hr : b.run wf.tick (machine b K o is) sch K.body with
          | none => simp only [hr] at h; cases h
          | some ws' =>
            simp only [hr, Except.ok.injEq, Prod.mk.injEq] at h ⊢
            obtain ⟨rfl, rfl⟩ := h
            have : o = l := by
              unfold cpuBuf at hc
              rw [show wf.cpu out = some l from hl, Option.some_or] at hc
              cases hc; rfl
            rw [this]

theorem start_runFunc {b : Backend V} (hg : b.isGpu = false) {j : Job V} {w w0 w1 : World V} {p : Nat × Schedule} {q : Kernel × Bool} {o : Nat} {ws : List (Int × V)} {l : List V} (hgr : w.g = j.g)
    (hf : find b j w p = .ok (q, w0)) (h : start b j w0 p q = .ok ((o, ws), w1)) (hl : w1.cpu o = some l) : runFunc b j.t (j.a + 2) w p = .ok { w1 with cpu := upd w1.cpu o (applyWrites l ws) } := by
  unfold find at hf
  unfold start at h
  unfold runFunc
  simp only [bind, Except.bind] at hf h ⊢
  rw [hgr]
  cases hF : j.t p.1 with
  | none => simp only [hF] at h; cases h
  | some F =>
    simp only [hF] at hf h ⊢
    cases ho : outBufs j.t (Algo.args F.expr).2 with
    | error e => simp only [ho] at h; cases h
    | ok outs =>
      simp only [ho] at h ⊢
      cases hk : cacheKey j.g j.t (j.a + 2) F p.2 with
      | error e => simp only [hk] at hf; cases hf
      | ok key =>
        simp only [hk] at hf ⊢
        cases hL : Thr.launch b w0 p.2 q.1 F.outBuffer ((Algo.args F.expr).1 ++ outs) with
        | error e => simp only [hL] at h; cases h
        | ok r =>
          obtain ⟨ws', w2⟩ := r
          simp only [hL, pure, Except.pure, Except.ok.injEq, Prod.mk.injEq] at h
          obtain ⟨⟨rfl, rfl⟩, hw⟩ := h
          have hl' : w2.cpu F.outBuffer = some l := by
            rw [← hl, ← hw]; split <;> rfl
          have hi := launch_invoke hg hL hl'
          cases hc : w.cache.lookup key with
          | some K =>
            simp only [hc, pure, Except.pure, Except.ok.injEq, Prod.mk.injEq] at hf ⊢
            obtain ⟨rfl, rfl⟩ := hf
            simp only [Bool.false_eq_true, if_false] at hw
            subst hw
            rw [hgr] at hi
            exact hi
          | none =>
            simp only [hc] at hf ⊢
            cases hcg : Codegen.codegen j.g j.t F p.2 ⟨(Algo.args F.expr).1, (Algo.args F.expr).2⟩ w.tmp with
            | error e => simp only [hcg] at hf; cases hf
            | ok r =>
              obtain ⟨K, n⟩ := r
              simp only [hcg, pure, Except.pure, Except.ok.injEq, Prod.mk.injEq] at hf ⊢
              obtain ⟨rfl, rfl⟩ := hf
              simp only [if_true] at hw
              subst hw
              rw [hgr] at hi
              simp only [hi]

theorem upd_upd {α : Type} (f : Nat → Option α) (i : Nat) (x y : α) : upd (upd f i x) i y = upd f i y := by
  funext k; unfold upd; split <;> rfl

/-- The stores of a kernel, one after another. -/
theorem stores_alone {b : Backend V} {o : Nat} : ∀ (ws : List (Int × V)) (D : List Nat) (j : Job V) (w : World V) (l : List V), j.cur = some (o, ws) → w.cpu o = some l → InvX b D w → JobOK b D w j →
    ∃ D', alone b (ws.length + 1) j w = .ok ({ j with cur := none }, { w with cpu := upd w.cpu o (applyWrites l ws) }) ∧ InvX b D' { w with cpu := upd w.cpu o (applyWrites l ws) } ∧
      JobOK b D' { w with cpu := upd w.cpu o (applyWrites l ws) } { j with cur := none } := by
  intro ws
  induction ws with
  | nil =>
    intro D j w l hc hl h hj
    have hu : ({ w with cpu := upd w.cpu o (applyWrites l []) } : World V) = w := by
      have : upd w.cpu o (applyWrites l []) = w.cpu := by
        funext i
        by_cases he : i = o
        · subst he; rw [upd_same, hl]; rfl
        · rw [upd_ne _ _ he]
      rw [this]
    have a := done_ok h hj hc
    rw [hu]
    refine ⟨_, ?_, a.inv, a.ok⟩
    simp only [List.length_nil, alone, advance, hc, Except.bind]
  | cons x ws ih =>
    intro D j w l hc hl h hj
    obtain ⟨k, v⟩ := x
    obtain ⟨l', hl', a⟩ := store_ok h hj hc
    rw [hl] at hl'; cases hl'
    obtain ⟨D', e, i', k'⟩ := ih D { j with cur := some (o, ws) } { w with cpu := upd w.cpu o (l.set k.toNat v) } (l.set k.toNat v) rfl (upd_same _ _ _) a.inv a.ok
    simp only [upd_upd] at e i' k'
    refine ⟨D', ?_, i', k'⟩
    rw [List.length_cons, alone]
    have : advance b j w = .ok ({ j with cur := some (o, ws) }, { w with cpu := upd w.cpu o (l.set k.toNat v) }) := by
      unfold advance; simp only [hc, hl]
    rw [this]
    exact e

theorem alone_add {b : Backend V} (n m : Nat) (j j1 : Job V) (w w1 : World V) (h : alone b n j w = .ok (j1, w1)) : alone b (n + m) j w = alone b m j1 w1 := by
  induction n generalizing j w with
  | zero => cases h; rw [Nat.zero_add]
  | succ n ih =>
    rw [Nat.add_right_comm]
    simp only [alone] at h ⊢
    cases e : advance b j w with
    | error e' => rw [e] at h; cases h
    | ok p => rw [e] at h; exact ih _ _ h

theorem todo_alone {b : Backend V} (hb : Faithful b) (hg : b.isGpu = false) : ∀ (todo : List (Nat × Schedule)) (D : List Nat) (j : Job V) (w : World V), j.todo = todo → j.cur = none → w.g = j.g → InvX b D w →
    NoCollision w.log → JobOK b D w j → j.found = none → ∃ n j' w', alone b n j w = .ok (j', w') ∧ j'.finished = true ∧ todo.foldlM (runFunc b j.t (j.a + 2)) w = .ok w' := by
  intro todo
  induction todo with
  | nil =>
    intro D j w ht hc _ _ _ _ _
    refine ⟨0, j, w, rfl, ?_, rfl⟩
    unfold Job.finished; rw [hc, ht]; rfl
  | cons p todo ih =>
    intro D j w ht hc hgr h hnc hj hfd
    obtain ⟨q, w0, e0, hg0, a0⟩ := thrFind_ok hb h hnc hj hc ht
    obtain ⟨ws, w1, e, a⟩ := thrStart_ok (p := p) (todo := todo) hb hg a0.inv (by rw [a0.log]; exact hnc) a0.ok hc rfl ht
    have e' : start b j w0 p q = .ok ((p.1, ws), w1) := e
    obtain ⟨l, hl, _⟩ := (a.ok.cur _ _ rfl).buf
    obtain ⟨D2, e2, i2, k2⟩ := stores_alone ws _ { j with todo := todo, cur := some (p.1, ws), found := none } w1 l rfl hl a.inv a.ok
    obtain ⟨n, j3, w3, e3, f3, r3⟩ := ih D2 { j with todo := todo, cur := none, found := none } { w1 with cpu := upd w1.cpu p.1 (applyWrites l ws) } rfl rfl ((a.g.trans a0.g).trans hgr) i2 (by
      show NoCollision w1.log
      rw [a.log, a0.log]; exact hnc) k2 rfl
    refine ⟨2 + (ws.length + 1) + n, j3, w3, ?_, f3, ?_⟩
    · have h1 : alone b 2 j w = .ok ({ j with todo := todo, cur := some (p.1, ws), found := none }, w1) := by
        have s1 : advance b j w = .ok ({ j with found := some q }, w0) := by unfold advance; simp only [hc, ht, hfd, e0, Except.map]
        have s2 : advance b { j with found := some q } w0 = .ok ({ j with todo := todo, cur := some (p.1, ws), found := none }, w1) := by
          unfold advance
          simp only [hc, ht]
          have : start b { j with found := some q } w0 p q = .ok ((p.1, ws), w1) := e
          simp only [hc, ht] at this
          rw [this]; rfl
        simp only [alone, s1, s2, Except.bind]
      have h2 := alone_add 2 (ws.length + 1) _ _ _ _ h1
      rw [alone_add _ n j _ w _ (h2.trans e2)]; exact e3
    · rw [List.foldlM_cons, start_runFunc hg hgr e0 e' hl]; exact r3

/-- A thread that nobody interrupts does what `materialize` does. -/
theorem begin_alone {b : Backend V} (hb : Faithful b) (hg : b.isGpu = false) {D : List Nat} {w : World V} (h : InvX b D w) {a : Nat} (ha : a < w.g.length) (hargs : ArgsOK b w (.materialize a)) :
    ∃ j0 w0 n j w', begin_ b a (a + 1) w a = .ok (j0, w0) ∧ alone b n j0 w0 = .ok (j, w') ∧ j.finished = true ∧ materialize b w a = .ok w' := by
  have hwf : WF w.g := h.inv.winv.wf
  obtain ⟨f', e⟩ := begin_base (b := b) (arr := a) hwf ha (a + 1) (by omega)
  obtain ⟨f'', em⟩ := materializeF_base (b := b) hwf ha (a + 1) (by omega)
  have hv := base_base hwf ha
  have hbl := Nat.lt_of_le_of_lt (base_le hwf ha) ha
  obtain ⟨j, e', harr, hgj, hj⟩ := begin_ok h ha hargs.1
  refine ⟨j, { w with log := w.log ++ launchLog b.isGpu w.g a }, ?_⟩
  by_cases hc : w.g.ctx (base w.g a) = .const
  · refine ⟨0, j, w, e', ?_, ?_, ?_⟩
    · have hl : launchLog b.isGpu w.g a = [] := by
        rw [launchLog_base hwf ha]
        unfold launchLog launchLogF
        rw [hc]; rfl
      rw [hl, List.append_nil]; rfl
    · rw [e] at e'
      unfold begin_ at e'
      rw [hc] at e'
      simp only [Ctx.op] at e'
      have := (Prod.mk.inj (Except.ok.inj e')).1
      rw [← this]; rfl
    · unfold materialize
      rw [em]
      unfold materializeF; rw [hc]; rfl
  · have hcop := isConst_false hwf hbl hc
    have hj1 : InvX b D { w with log := w.log ++ launchLog b.isGpu w.g a } := by
      refine ⟨⟨⟨hwf, h.inv.winv.nn, h.inv.winv.cpu, h.inv.winv.dev, fun k K hk => ?_, h.inv.winv.ev⟩, h.inv.nn, h.inv.gs, False.elim⟩, ⟨h.dirty.lt, h.dirty.nonconst, h.dirty.part, h.dirty.nodev⟩⟩
      obtain ⟨K0, n0, n, h1, h2⟩ := h.inv.winv.cache k K hk
      exact ⟨K0, n0, n, List.mem_append_left _ h1, h2⟩
    have e2 := e'
    rw [e] at e2
    unfold begin_ at e2
    simp only [hcop, hv, Bool.false_eq_true, if_false, bind, Except.bind] at e2
    cases hcv : Algo.convert w.g (base w.g a) with
    | error er => rw [hcv] at e2; cases e2
    | ok q =>
      obtain ⟨funcs, t⟩ := q
      rw [hcv] at e2
      simp only at e2
      cases hsa : schedAll b.isGpu t funcs with
      | error er => rw [hsa] at e2; cases e2
      | ok scheds =>
        rw [hsa] at e2
        simp only [pure, Except.pure, Except.ok.injEq, Prod.mk.injEq] at e2
        obtain ⟨rfl, e3⟩ := e2
        obtain ⟨n, j3, w3, h1, h2, h3⟩ := todo_alone hb hg (funcs.zip scheds) D { arr := a, a := base w.g a, g := w.g, t := t, todo := funcs.zip scheds, cur := none } { w with log := w.log ++ launchLog b.isGpu w.g a } rfl rfl rfl hj1 hargs.2.1 hj rfl
        refine ⟨n, j3, w3, e', h1, h2, ?_⟩
        unfold materialize
        rw [em]
        unfold materializeF
        simp only [hcop, hv, hcv, hsa, Bool.false_eq_true, if_false, bind, Except.bind]
        rw [e3]; exact h3
