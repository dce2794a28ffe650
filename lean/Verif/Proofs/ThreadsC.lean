import Verif.Proofs.ThreadsB
import Verif.Proofs.Observe
/-
Proofs for C73: programs with threads on any backend, in which a kernel is run as a whole.
-/
namespace Whale
open Kern Codegen Mat Hist Thr
variable {V : Type}

/-- A `materialize` call that is between two kernels. -/
structure JobK (b : Backend V) (w : World V) (j : Job V) : Prop where
  ext : Ext j.g w.g
  lt : j.arr < j.g.length
  base : base j.g j.arr = j.a
  cur : j.cur = none
  sizes : b.isGpu = true → ∀ p ∈ j.todo, ∀ F, j.t p.1 = some F → ∀ i, (i = p.1 ∨ i ∈ Algo.funcRefs F.expr ∨ i ∈ Algo.bufRefs F.expr) → 0 < prod (j.g.shape i) ∧ (i = p.1 → j.g.ctx p.1 ≠ .const → GridOK (launchGrid (j.g.shape i)))
  ex : ∃ (S : Nat → Prop) (done : List Nat), TblGood j.g j.t j.a S ∧ (∀ p ∈ j.todo, S p.1 ∧ ∃ F, j.t p.1 = some F ∧ Sched.schedule b.isGpu F = .ok p.2) ∧
    (∀ p ∈ j.todo, ∀ q, plan1 j.g j.t (j.a + 2) p = some q → q ∈ w.log) ∧ Ordered j.t (done ++ j.todo.map (·.1)) ∧
    (∀ d ∈ done, d < w.g.length ∧ Avail b w d) ∧ j.a ∈ done ++ j.todo.map (·.1)

theorem JobK.later {b : Backend V} {w w' : World V} {j : Job V} (h : JobK b w j) (l : Later b w w') (hlog : ∀ q ∈ w.log, q ∈ w'.log) : JobK b w' j := by
  obtain ⟨S, done, h1, h2, h3, h4, h5, h6⟩ := h.ex
  exact ⟨h.ext.trans l.ext, h.lt, h.base, h.cur, h.sizes, S, done, h1, h2, fun p hp q hq => hlog _ (h3 p hp q hq), h4,
    fun d hd => ⟨Nat.lt_of_lt_of_le (h5 d hd).1 l.ext.length, l.avail (h5 d hd).1 (h5 d hd).2⟩, h6⟩

/-- The next function is run. -/
theorem runWhole_ok {b : Backend V} (hb : Faithful b) {w : World V} (h : WInv b w) (hnc : NoCollision w.log) {j : Job V} (hj : JobK b w j) {p : Nat × Schedule} {todo : List (Nat × Schedule)} (ht : j.todo = p :: todo) :
    ∃ w', runWhole b j w p = .ok w' ∧ Step b w w' ∧ p.1 < w.g.length ∧ Avail b w' p.1 := by
  have hwf : WF w.g := h.wf
  have hwfj : WF j.g := WF.of_ext hj.ext hwf
  have hshape : ∀ i, i < j.g.length → w.g.shape i = j.g.shape i := fun i hi => hj.ext.shape hi
  have hlen : ∀ i, i < j.g.length → i < w.g.length := fun i hi => Nat.lt_of_lt_of_le hi hj.ext.length
  have hden : ∀ i, i < j.g.length → den b.A w.g i = den b.A j.g i := fun i hi => den_ext b.A hj.ext hwf hi
  obtain ⟨S, done, h1, h2, h3, h4, h5, h6⟩ := hj.ex
  obtain ⟨f, sch⟩ := p
  obtain ⟨hS, F, hF, hsch⟩ := h2 (f, sch) (by rw [ht]; simp)
  obtain ⟨key, K0, n0, X⟩ := func_facts (g := j.g) hb hwfj (fun i hi => by rw [← hshape i hi]; exact h.nn i (hlen i hi)) h1 hS hF hsch (log := w.log) (fun q hq => h3 _ (by rw [ht]; simp) q hq)
  have hav : ∀ d ∈ Algo.funcRefs F.expr, Avail b w d := fun d hd => (h5 d (by
    have := h4 done f (todo.map (·.1)) (by rw [ht]; simp) F hF d hd
    exact this)).2
  have hsz := fun hg => hj.sizes hg (f, sch) (by rw [ht]; simp) F hF
  have hin : ∀ i ∈ (Algo.args F.expr).1 ++ (Algo.args F.expr).2, i < w.g.length ∧ Avail b w i := by
    intro i hi
    rcases List.mem_append.1 hi with hi | hi
    · refine ⟨hlen i (X.bufs i hi).1, .inl (avail_const (b := b) hwf (hlen i (X.bufs i hi).1) ?_)⟩
      rw [hj.ext.ctx (X.bufs i hi).1]; exact (X.bufs i hi).2
    · exact ⟨hlen i (X.fncs i hi).1, hav i (X.fncs i hi).2⟩
  have hinj : ∀ i ∈ (Algo.args F.expr).1 ++ (Algo.args F.expr).2, i < j.g.length := by
    intro i hi
    rcases List.mem_append.1 hi with hi | hi
    · exact (X.bufs i hi).1
    · exact (X.fncs i hi).1
  have hrun : ∀ n tick, ∀ o : List V, (o.length : Int) = prod (w.g.shape f) →
      ∃ ws, b.run tick (machine b (K0.shift n) o (((Algo.args F.expr).1 ++ (Algo.args F.expr).2).map fun i => (den b.A w.g i).flatten)) sch (K0.shift n).body = some ws ∧ ws.Perm (storesOf b.A w.g f) := by
    intro n tick o ho
    rw [hshape f X.lt] at ho
    obtain ⟨ws, e, hp⟩ := X.run n tick o ho
    refine ⟨ws, ?_, ?_⟩
    · rw [← e]
      congr 2
      exact List.map_congr_left fun i hi => by rw [hden i (hinj i hi)]
    · have : storesOf b.A w.g f = storesOf b.A j.g f := by
        unfold storesOf
        rw [hden f X.lt, hshape f X.lt]
      rw [this]; exact hp
  have hsizes : b.isGpu = true → ∀ i ∈ f :: ((Algo.args F.expr).1 ++ (Algo.args F.expr).2), 0 < prod (w.g.shape i) := by
    intro hg i hi
    have hij : i < j.g.length := by
      rcases List.mem_cons.1 hi with rfl | hi
      · exact X.lt
      · exact hinj i hi
    rw [hshape i hij]
    apply fun h => (hsz hg i h).1
    simp only [List.mem_cons, List.mem_append] at hi
    rcases hi with rfl | hi | hi
    · exact .inl rfl
    · exact .inr (.inr (mem_dedup.1 hi))
    · exact .inr (.inl (X.fncs i hi).2)
  have hlo : b.isGpu = true → launchOK sch = true := by
    intro hg
    obtain ⟨_, hfc, F', hF', hE, _⟩ := h1.entry f hS
    rw [hF] at hF'; cases hF'
    rw [hg] at hsch
    exact (launchOK_iff hE hsch).2 ((hsz hg f (.inl rfl)).2 rfl hfc)
  have hfin : ∀ (w1 w' : World V), WInv b w1 → Ran b w1 w' f → w1.g = w.g → w1.log = w.log → w1.cpu = w.cpu → w1.dev = w.dev → w1.grad = w.grad → Step b w w' ∧ Avail b w' f := by
    intro w1 w' h1 hr e1 e2 e3 e4 e5
    obtain ⟨c, d, e, rfl⟩ := hr.eq
    exact ⟨⟨⟨h1.wf, h1.nn, hr.cpu, hr.dev, h1.cache, hr.ev⟩, e1, e2, e5, fun i hi => hr.cpuMono i (by rw [e3]; exact hi), fun i hi => hr.devMono i (by rw [e4]; exact hi)⟩, hr.avail⟩
  have hout : f < w.g.length := hlen f X.lt
  unfold runWhole
  simp only [hF, X.outs, X.hkey, bind, Except.bind]
  rw [X.buffer]
  cases hk : w.cache.lookup key with
  | some K =>
    obtain ⟨K1, n1, n, hm, rfl⟩ := h.cache key K (mem_of_lookup hk)
    have heq := hnc _ hm _ X.log rfl
    simp only [Except.ok.injEq, Prod.mk.injEq] at heq
    obtain ⟨rfl, rfl⟩ := heq
    have hw1 : WInv b { w with hits := fun k => if k = key then w.hits k + 1 else w.hits k } := ⟨hwf, h.nn, h.cpu, h.dev, h.cache, h.ev⟩
    obtain ⟨w', e, hr⟩ := invoke_ok hw1 (sch := sch) (K := K1.shift n) hout X.notIn (X.params n) hsizes hlo hin (hrun n _)
    have := hfin _ w' hw1 hr rfl rfl rfl rfl rfl
    exact ⟨w', e, this.1, hout, this.2⟩
  | none =>
    simp only [X.gen w.tmp, pure, Except.pure]
    have hw1 : WInv b { w with tmp := n0 + w.tmp, cache := w.cache ++ [(key, K0.shift w.tmp)], hits := fun k => if k = key then 0 else w.hits k } := by
      refine ⟨hwf, h.nn, h.cpu, h.dev, ?_, h.ev⟩
      intro k K hm
      rcases List.mem_append.1 hm with hm | hm
      · exact h.cache k K hm
      · simp only [List.mem_singleton, Prod.mk.injEq] at hm
        obtain ⟨rfl, rfl⟩ := hm
        exact ⟨K0, n0, w.tmp, X.log, rfl⟩
    obtain ⟨w', e, hr⟩ := invoke_ok hw1 (sch := sch) (K := K0.shift w.tmp) hout X.notIn (X.params _) hsizes hlo hin (hrun _ _)
    obtain ⟨hs, ha⟩ := hfin _ w' hw1 hr rfl rfl rfl rfl rfl
    rw [e]
    exact ⟨_, rfl, ⟨⟨hs.inv.wf, hs.inv.nn, hs.inv.cpu, hs.inv.dev, hs.inv.cache, hs.inv.ev⟩, hs.g, hs.log, hs.grad, hs.cpuMono, hs.devMono⟩, hout, ha⟩

theorem Step.later {b : Backend V} {w w' : World V} (s : Step b w w') : Later b w w' := ⟨by rw [s.g]; exact .refl _, s.cpuMono, s.devMono⟩

theorem InvG.of_step {b : Backend V} {w w' : World V} (h : InvG False b w) (s : Step b w w') : InvG False b w' := by
  refine ⟨s.inv, by rw [s.g]; exact h.nn, fun i k hk => ?_, False.elim⟩
  rw [s.grad] at hk
  rw [s.g]
  exact h.gs i k hk

/-- A step of a `materialize` call. -/
theorem advanceWhole_ok {b : Backend V} (hb : Faithful b) {w : World V} (h : InvG False b w) (hnc : NoCollision w.log) {j : Job V} (hj : JobK b w j) :
    ∃ j' w', advanceWhole b j w = .ok (j', w') ∧ Step b w w' ∧ JobK b w' j' ∧ j'.arr = j.arr ∧ j'.todo = j.todo.tail := by
  unfold advanceWhole
  cases ht : j.todo with
  | nil => exact ⟨j, w, rfl, .refl h.winv, hj, rfl, ht⟩
  | cons p todo =>
    obtain ⟨w', e, s, hlt, ha⟩ := runWhole_ok hb h.winv hnc hj ht
    refine ⟨{ j with todo := todo }, w', by simp only [e, Except.map], s, ?_, rfl, rfl⟩
    have hj' := hj.later s.later (fun q hq => by rw [s.log]; exact hq)
    obtain ⟨S, done, h1, h2, h3, h4, h5, h6⟩ := hj'.ex
    refine ⟨hj'.ext, hj.lt, hj.base, hj.cur, fun hg q hq => hj.sizes hg q (by rw [ht]; simp [show q ∈ todo from hq]), S, done ++ [p.1], h1, fun q hq => h2 q (by rw [ht]; simp [show q ∈ todo from hq]),
      fun q hq => h3 q (by rw [ht]; simp [show q ∈ todo from hq]), ?_, fun d hd => ?_, ?_⟩
    · rw [ht] at h4; simpa using h4
    · rcases List.mem_append.1 hd with hd | hd
      · exact h5 d hd
      · simp only [List.mem_singleton] at hd
        subst hd
        exact ⟨by rw [s.g]; exact hlt, ha⟩
    · rw [ht] at h6; simpa using h6

/-- A `materialize` call begins. -/
theorem beginK_ok {b : Backend V} {w : World V} (h : InvG False b w) {a : Nat} (ha : a < w.g.length) (hargs : ArgsOK b w (.materialize a)) :
    ∃ j, begin_ b a (a + 1) w a = .ok (j, { w with log := w.log ++ launchLog b.isGpu w.g a }) ∧ j.arr = a ∧ j.g = w.g ∧ JobK b { w with log := w.log ++ launchLog b.isGpu w.g a } j := by
  have hwf : WF w.g := h.winv.wf
  obtain ⟨hns, _, hsz0⟩ := hargs
  obtain ⟨f', e⟩ := begin_base (b := b) (arr := a) hwf ha (a + 1) (by omega)
  have hv := base_base hwf ha
  have hbl := Nat.lt_of_le_of_lt (base_le hwf ha) ha
  rw [e, launchLog_base hwf ha]
  by_cases hc : w.g.ctx (base w.g a) = .const
  · have hl : launchLog b.isGpu w.g (base w.g a) = [] := by
      unfold launchLog launchLogF
      rw [hc]; rfl
    rw [hl, List.append_nil]
    refine ⟨{ arr := a, a := base w.g a, g := w.g, t := fun _ => none, todo := [], cur := none }, ?_, rfl, rfl, ⟨.refl _, ha, rfl, rfl, by simp, fun _ => False, [base w.g a], ⟨fun f hf => hf.elim⟩, by simp, by simp,
      (by intro _ _ _ _ F hF; cases hF), fun d hd => ?_, by simp⟩⟩
    · unfold begin_; rw [hc]; rfl
    · simp only [List.mem_singleton] at hd
      subst hd
      exact ⟨hbl, .inl (avail_const (b := b) hwf hbl hc)⟩
  · have hcop := isConst_false hwf hbl hc
    obtain ⟨funcs, t, e', hnd, ⟨pre, hpre⟩, hord, htg, _⟩ := convert_good hwf hbl hns hv hc
    obtain ⟨scheds, es, hl, hps⟩ := schedAll_ok (isGpu := b.isGpu) htg funcs (fun _ h => h)
    have hmap : (funcs.zip scheds).map (·.1) = funcs := by
      apply List.map_fst_zip; omega
    have hmem : ∀ p ∈ funcs.zip scheds, p.1 ∈ funcs := fun p hp => by rw [← hmap]; exact List.mem_map_of_mem hp
    refine ⟨{ arr := a, a := base w.g a, g := w.g, t := t, todo := funcs.zip scheds, cur := none }, ?_, rfl, rfl, ⟨.refl _, ha, rfl, rfl, fun hg p hp F hF => ?_, (· ∈ funcs), [], htg,
      fun p hp => ⟨hmem p hp, hps p hp⟩, fun p hp q hq => List.mem_append_right _ ?_, by rw [hmap]; simpa using hord, by simp, by rw [hmap, hpre]; simp⟩⟩
    · rw [launchLog_nonview (isGpu := b.isGpu) hcop hv e' es]
      unfold begin_
      simp only [hcop, hv, e', es, bind, Except.bind, pure, Except.pure]
      rfl
    · exact kernelSizes_of hwf ha hns (hsz0 hg) funcs t e' p.1 (hmem p hp) F hF
    · rw [launchLog_nonview (isGpu := b.isGpu) hcop hv e' es]
      exact List.mem_filterMap.2 ⟨p, hp, hq⟩

/-- The invariant; `es` is what has happened so far. -/
structure InvK (b : Backend V) (es : List (TEvent V)) (x : TWorld V) : Prop where
  inv : InvG False b x.w
  nc : NoCollision x.w.log
  jobs : ∀ i j, x.job i = some j → JobK b x.w j
  ret : ∀ i a, TEvent.returned i a ∈ es → a < x.w.g.length ∧ Avail b x.w (base x.w.g a)

theorem InvK.init (b : Backend V) : InvK b [] (Thr.init : TWorld V) :=
  ⟨⟨(Inv.init b).winv, (Inv.init b).nn, (Inv.init b).gs, False.elim⟩, (by intro p hp; cases hp), (by intro i j h; cases h), by simp⟩

theorem retK_later {b : Backend V} {es : List (TEvent V)} {w w' : World V} (hw : WF w.g) (l : Later b w w') (h : ∀ i a, TEvent.returned i a ∈ es → a < w.g.length ∧ Avail b w (base w.g a)) :
    ∀ i a, TEvent.returned i a ∈ es → a < w'.g.length ∧ Avail b w' (base w'.g a) := by
  intro i a hm
  obtain ⟨h1, h2⟩ := h i a hm
  refine ⟨Nat.lt_of_lt_of_le h1 l.ext.length, ?_⟩
  rw [base_ext l.ext hw h1]
  exact l.avail (Nat.lt_of_le_of_lt (base_le hw h1) h1) h2

/-- Calls other than `materialize` and `reset` plan no kernel. -/
theorem next_logK {b : Backend V} {w w' : World V} (h : InvG False b w) {c : Call V} (hm : c.isMat = false) (hl : Legal b w c) (hn : next b w c = some w') :
    (c.isReset = false → w'.log = w.log) ∧ (c.isReset = true → w'.log = []) := by
  unfold next at hn
  cases hs : step b w c with
  | error e =>
    rw [hs] at hn
    simp only at hn
    split at hn
    · cases hn
      refine ⟨fun _ => rfl, fun hr => ?_⟩
      cases c <;> cases hr
      unfold step at hs
      rw [if_pos (by simp [Call.arrays])] at hs
      cases hs
    · cases hn
  | ok p =>
    obtain ⟨o, w1⟩ := p
    rw [hs] at hn
    cases hn
    have ha : ArgsOK b w c := hl.resolve_left (by rintro ⟨e, he⟩; rw [hs] at he; cases he)
    unfold step at hs
    split at hs
    case isFalse => cases hs
    rename_i hin
    by_cases hq : quiet c = true
    · exact exec1_log hq hs
    · rcases notQuiet hq with ⟨a, rfl⟩ | ⟨a, rfl⟩ | ⟨a, rfl⟩
      · cases hm
      · simp only [exec1] at hs
        cases ht : tolist b w a with
        | error e => rw [ht] at hs; cases hs
        | ok p =>
          rw [ht] at hs
          cases hs
          refine ⟨fun _ => ?_, fun hr => by cases hr⟩
          unfold tolist at ht
          cases hc : ensureCpu b w (base w.g a) with
          | error e => rw [hc] at ht; cases ht
          | ok w2 =>
            rw [hc] at ht
            have h2 : w2.log = w.log := by
              unfold ensureCpu at hc
              repeat' (first | (cases hc <;> rfl) | split at hc)
            simp only [bind, Except.bind] at ht
            split at ht
            · split at ht
              · cases ht
              · cases ht; exact h2
            · cases ht
      · have hal := hin a (by simp [Call.arrays])
        obtain ⟨w2, order, e, r⟩ := backward_ok b.A h.winv.wf h.nn h.gs hal ha
        simp only [exec1, e] at hs
        cases hs
        have hrest := r.step.rest
        exact ⟨fun _ => by rw [hrest], fun hr => by cases hr⟩

/-- The invariant is kept. -/
theorem TStepBy.invK {b : Backend V} (hb : Faithful b) {es : List (TEvent V)} {x x' : TWorld V} {e : TEvent V} (h : InvK b es x) (hs : TStepBy (advanceWhole b) b x e x') :
    InvK b (es ++ [e]) x' ∧ Later b x.w x'.w := by
  have hwf : WF x.w.g := h.inv.winv.wf
  cases hs with
  | @begins i a j w hi ha hargs e =>
    obtain ⟨j', e', harr, hgj, hj⟩ := beginK_ok h.inv ha hargs
    rw [e] at e'
    cases e'
    have hl : Later b x.w { x.w with log := x.w.log ++ launchLog b.isGpu x.w.g a } := ⟨.refl _, fun _ h => h, fun _ h => h⟩
    refine ⟨⟨⟨⟨hwf, h.inv.winv.nn, h.inv.winv.cpu, h.inv.winv.dev, fun k K hk => ?_, h.inv.winv.ev⟩, h.inv.nn, h.inv.gs, False.elim⟩, hargs.2.1, fun i' j' hj' => ?_, fun i' a' hm => ?_⟩, hl⟩
    · obtain ⟨K0, n0, n, h1, h2⟩ := h.inv.winv.cache k K hk
      exact ⟨K0, n0, n, List.mem_append_left _ h1, h2⟩
    · simp only [upd] at hj'
      split at hj'
      · cases hj'; exact hj
      · exact (h.jobs i' j' hj').later hl (fun q hq => List.mem_append_left _ hq)
    · exact retK_later hwf hl h.ret i' a' (mem_snoc_ret hm (by simp))
  | @works i j j' w hi hf e =>
    obtain ⟨j1, w1, e', s, hj, _⟩ := advanceWhole_ok hb h.inv h.nc (h.jobs i j hi)
    rw [e] at e'
    cases e'
    refine ⟨⟨h.inv.of_step s, by rw [s.log]; exact h.nc, fun i' j'' hj' => ?_, fun i' a' hm => retK_later hwf s.later h.ret i' a' (mem_snoc_ret hm (by simp))⟩, s.later⟩
    simp only [upd] at hj'
    split at hj'
    · cases hj'; exact hj
    · exact (h.jobs i' j'' hj').later s.later (fun q hq => by rw [s.log]; exact hq)
  | @returns i j hi hf =>
    refine ⟨⟨h.inv, h.nc, fun i' j' hj' => ?_, fun i' a' hm => ?_⟩, .refl b _⟩
    · simp only at hj'
      split at hj'
      · cases hj'
      · exact h.jobs i' j' hj'
    · rcases List.mem_append.1 hm with hm | hm
      · exact h.ret i' a' hm
      · simp only [List.mem_singleton, TEvent.returned.injEq] at hm
        obtain ⟨rfl, rfl⟩ := hm
        have hj := h.jobs _ j hi
        obtain ⟨S, done, _, _, _, _, h5, h6⟩ := hj.ex
        unfold Job.finished at hf
        have ht : j.todo = [] := by cases ht : j.todo <;> simp_all
        rw [ht] at h6
        refine ⟨Nat.lt_of_lt_of_le hj.lt hj.ext.length, ?_⟩
        rw [base_ext hj.ext (WF.of_ext hj.ext hwf) hj.lt, hj.base]
        exact (h5 _ (by simpa using h6)).2
  | @raises i hi =>
    refine ⟨⟨h.inv, h.nc, fun i' j' hj' => ?_, fun i' a' hm => h.ret i' a' (mem_snoc_ret hm (by simp))⟩, .refl b _⟩
    simp only at hj'
    split at hj'
    · cases hj'
    · exact h.jobs i' j' hj'
  | @calls c w hm hr hl hn =>
    obtain ⟨hk2, hk3⟩ := next_logK h.inv hm hl hn
    obtain ⟨ho, hlat⟩ := next_ok hb h.inv hl hn
    refine ⟨⟨ho, ?_, fun i' j' hj' => ?_, fun i' a' hm => retK_later hwf hlat h.ret i' a' (mem_snoc_ret hm (by simp))⟩, hlat⟩
    · cases hres : c.isReset with
      | true => rw [hk3 hres]; intro p hp; cases hp
      | false => rw [hk2 hres]; exact h.nc
    · have hres : c.isReset = false := by
        by_contra hne
        have hj0 : x.job i' = some j' := hj'
        rw [hr (by simpa using hne) i'] at hj0; cases hj0
      exact (h.jobs i' j' hj').later hlat (fun q hq => by rw [hk2 hres]; exact hq)
  | @stops y w hy ha hs =>
    obtain ⟨ho, hlat⟩ := stopped_ok h.inv hy ha hs
    have hst := (hs.bstep b.A hwf h.inv.nn h.inv.gs hy ha).1
    have hlog : w.log = x.w.log := by rw [hst.rest]
    refine ⟨⟨ho, by rw [hlog]; exact h.nc, fun i' j' hj' => ?_, fun i' a' hm => retK_later hwf hlat h.ret i' a' (mem_snoc_ret hm (by simp))⟩, hlat⟩
    exact (h.jobs i' j' hj').later hlat (fun q hq => by rw [hlog]; exact hq)

theorem TRunsBy.invK {b : Backend V} (hb : Faithful b) {es es' : List (TEvent V)} {x y : TWorld V} (h0 : InvK b es x) (h : TRunsBy (advanceWhole b) b x es' y) : InvK b (es ++ es') y ∧ Later b x.w y.w := by
  induction h with
  | refl => exact ⟨by simpa using h0, .refl b _⟩
  | step _ hs ih =>
    have := hs.invK hb ih.1
    exact ⟨by simpa using this.1, ih.2.trans this.2⟩

end Whale
