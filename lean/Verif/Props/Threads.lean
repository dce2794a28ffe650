import Verif.Proofs.ThreadsC
import Verif.Props.Unfinished
import Verif.Props.CrashGpu
/-
C73: several threads.
-/
namespace Whale.Props
open Whale Mat Hist Thr Text
variable {V : Type}

/-- C73 (CPU backends; looking up or generating a kernel is one step, starting it another): after any thread's `a.materialize()` has returned, `a.tolist()` returns the array's value and changes nothing, whatever all threads do – also while other threads
are in the middle of computing the same array, and if some of them are left by exceptions. -/
theorem C73_computes_partial {b : Backend V} (hb : Faithful b) (hg : b.isGpu = false) {es : List (TEvent V)} {x : TWorld V} (hr : TRuns b Thr.init es x) {i a : Nat} (he : .returned i a ∈ es)
    (hno : NoOffsetReshape x.w.g a) : step b x.w (.tolist a) = .ok (.list (value b x.w a).toNested, x.w) := by
  obtain ⟨D, h⟩ := hr.inv hb hg
  obtain ⟨ha, hav⟩ := h.ret i a he
  have hD := h.inv.dirty.notMem h.inv.inv.winv.wf hav
  rw [step_eq (by simpa [Call.arrays] using ha)]
  unfold AvC at hav
  rw [cpuBuf_clean hD] at hav
  simp only [exec1, tolistX h.inv ha hD hno hav]
  rfl

/-- C73: no thread ever changes an existing array's shape or value, or the shape of what it is computed from. -/
theorem C73_keeps {b : Backend V} (hb : Faithful b) (hg : b.isGpu = false) {es es' : List (TEvent V)} {x y : TWorld V} (hr : TRuns b Thr.init es x) (hy : TRuns b x es' y) {a : Nat} (ha : a < x.w.g.length) :
    a < y.w.g.length ∧ y.w.g.shape a = x.w.g.shape a ∧ y.w.g.ctx a = x.w.g.ctx a ∧ value b y.w a = value b x.w a := by
  obtain ⟨D, h⟩ := hr.inv hb hg
  have key : ∃ es'' D', InvD b D' es'' y ∧ Ext x.w.g y.w.g := by
    induction hy with
    | refl => exact ⟨es, D, h, .refl _⟩
    | step _ hs ih =>
      obtain ⟨es'', D', h', he⟩ := ih
      obtain ⟨D2, h2, l⟩ := hs.inv hb hg h'
      exact ⟨_, D2, h2, he.trans l.ext⟩
  obtain ⟨es'', D', h', he⟩ := key
  exact ⟨Nat.lt_of_lt_of_le ha he.length, he.shape ha, he.ctx ha, den_ext b.A he h'.inv.inv.winv.wf ha⟩

/-- C73 (CPU backends): what reading an array gives at any time, also while threads are computing it – it raises or every element is right or 0 – and reading changes nothing. -/
theorem C73_reads {b : Backend V} (hb : Faithful b) (hg : b.isGpu = false) {es : List (TEvent V)} {x : TWorld V} (hr : TRuns b Thr.init es x) {a : Nat} (hno : NoOffsetReshape x.w.g a) {o : Out V} {w' : World V}
    (hs : step b x.w (.tolist a) = .ok (o, w')) : w' = x.w ∧ ∃ l, o = .list l ∧ RelatedLists (fun u v => u = v ∨ u = b.A.host 0) l (value b x.w a).toNested := by
  obtain ⟨D, hi'⟩ := hr.inv hb hg
  have hi := hi'.inv
  generalize x.w = w at *
  have ha : a < w.g.length := by
    unfold step at hs
    split at hs
    · rename_i hin; exact hin a (by simp [Call.arrays])
    · cases hs
  have hwf : WF w.g := hi.inv.winv.wf
  have hbl := Nat.lt_of_le_of_lt (base_le hwf ha) ha
  rw [step_eq (by simpa [Call.arrays] using ha)] at hs
  simp only [exec1] at hs
  cases ht : tolist b w a with
  | error e => rw [ht] at hs; cases hs
  | ok p =>
    obtain ⟨hw, data, hd⟩ := tolist_cpu hg ht
    rw [ht] at hs
    cases hs
    refine ⟨hw, p.1, rfl, ?_⟩
    have hp : Partly (b.A.host 0) (den b.A w.g (base w.g a)).flatten data := by
      by_cases hD : base w.g a ∈ D
      · have hcpu : w.cpu (base w.g a) = some data := by
          unfold cpuBuf at hd
          rwa [nonconst_val hwf hbl (hi.dirty.nonconst _ hD), Option.or_none] at hd
        exact hi.dirty.part _ hD _ hcpu
      · have : data = (den b.A w.g (base w.g a)).flatten := cpuBuf_ok hi.inv.winv hbl (by rw [cpuBuf_clean hD]; exact hd)
        rw [this]; exact .refl _ _
    have hf : List.Forall₂ (fun x y => x = y ∨ x = b.A.host 0) data (den b.A w.g (base w.g a)).flatten := by
      rw [List.forall₂_iff_get]
      refine ⟨hp.1, fun k h1 h2 => ?_⟩
      rcases hp.2 k _ (List.getElem?_eq_getElem h1) with h | h
      · rw [List.getElem?_eq_getElem h2] at h
        exact .inl (Option.some.inj h).symm
      · exact .inr h
    unfold tolist ensureCpu at ht
    simp only [hd, bind, Except.bind] at ht
    cases hl : ND.toNdlist data (w.g.shape a) (w.g.strides a) (w.g.offset a) with
    | error e => rw [hl] at ht; cases ht
    | ok l =>
      rw [hl] at ht
      cases ht
      exact toNdlist_rel hf _ _ _ hl (toNdlist_den b.A hwf ha hno)

/-- `n` steps of thread `i`. -/
def workN (i : Nat) (n : Nat) : List (TEvent V) := List.replicate n (.worked i)

theorem alone_runs {b : Backend V} {x0 : TWorld V} {es : List (TEvent V)} {i : Nat} : ∀ (n : Nat) {x : TWorld V} {j j' : Job V} {w' : World V}, TRuns b x0 es x → x.job i = some j → alone b n j x.w = .ok (j', w') → j'.finished = true →
    ∃ m y, m ≤ n ∧ TRuns b x0 (es ++ workN i m) y ∧ y.w = w' ∧ y.job i = some j' := by
  intro n
  induction n generalizing es with
  | zero => intro x j j' w' hr hj ha _; cases ha; exact ⟨0, x, Nat.le_refl _, by simpa [workN] using hr, rfl, hj⟩
  | succ n ih =>
    intro x j j' w' hr hj ha hf
    simp only [alone] at ha
    cases hfin : j.finished with
    | true =>
      have hc : j.cur = none := by unfold Job.finished at hfin; cases hc : j.cur <;> simp_all
      have ht : j.todo = [] := by unfold Job.finished at hfin; cases ht : j.todo <;> simp_all
      have hadv : advance b j x.w = .ok (j, x.w) := by unfold advance; rw [hc, ht]
      rw [hadv] at ha
      obtain ⟨m, y, h1, h2, h3, h4⟩ := ih hr hj ha hf
      exact ⟨m, y, Nat.le_succ_of_le h1, h2, h3, h4⟩
    | false =>
      cases e : advance b j x.w with
      | error e' => rw [e] at ha; cases ha
      | ok p =>
        obtain ⟨j1, w1⟩ := p
        rw [e] at ha
        change alone b n j1 w1 = _ at ha
        obtain ⟨m, y, h1, h2, h3, h4⟩ := ih (es := es ++ [.worked i]) (x := ⟨w1, upd x.job i j1⟩) (.step hr (.works hj hfin e)) (upd_same _ _ _) ha hf
        refine ⟨m + 1, y, by omega, ?_, h3, h4⟩
        have : es ++ workN i (m + 1) = (es ++ [.worked i]) ++ workN i m := by simp [workN, List.replicate_succ]
        rw [this]; exact h2

/-- C73: no thread can be blocked by the others: at any time, a thread in the middle of `a.materialize()` needs only finitely many steps of its own to return. -/
theorem C73_returns {b : Backend V} (hb : Faithful b) (hg : b.isGpu = false) {es : List (TEvent V)} {x : TWorld V} (hr : TRuns b Thr.init es x) {i : Nat} {j : Job V} (hj : x.job i = some j) :
    ∃ n y, TRuns b Thr.init (es ++ workN i n ++ [.returned i j.arr]) y ∧ y.job i = none := by
  obtain ⟨D, h⟩ := hr.inv hb hg
  obtain ⟨n, j', w', D', e, hf, harr, _⟩ := finishes hb hg _ D x.w j rfl h.inv h.nc (h.jobs i j hj)
  obtain ⟨m, y, _, h2, _, h4⟩ := alone_runs n hr hj e hf
  refine ⟨m, ⟨y.w, fun k => if k = i then none else y.job k⟩, ?_, ?_⟩
  · have := TRunsBy.step h2 (.returns h4 hf)
    rwa [harr] at this
  · simp

/-- C73: a thread whose `materialize` nobody interrupts does what `materialize` does in a program with one thread. -/
theorem C73_alone {b : Backend V} (hb : Faithful b) (hg : b.isGpu = false) {es : List (TEvent V)} {x : TWorld V} (hr : TRuns b Thr.init es x) {i a : Nat} (hi : x.job i = none) (ha : a < x.w.g.length)
    (hargs : ArgsOK b x.w (.materialize a)) : ∃ n y w', TRuns b Thr.init (es ++ [.began i a] ++ workN i n ++ [.returned i a]) y ∧ materialize b x.w a = .ok w' ∧ y.w = w' ∧ ∀ k, y.job k = x.job k := by
  obtain ⟨D, h⟩ := hr.inv hb hg
  obtain ⟨j0, w0, n, j, w', e0, e1, hf, em⟩ := begin_alone hb hg h.inv ha hargs
  have hr1 : TRuns b Thr.init (es ++ [.began i a]) ⟨w0, upd x.job i j0⟩ := .step hr (.begins hi ha hargs e0)
  -- the other threads' jobs stay as they are
  have key : ∀ (n : Nat) {es : List (TEvent V)} {y : TWorld V} {j1 : Job V}, TRuns b Thr.init es y → y.job i = some j1 → (∀ k, k ≠ i → y.job k = x.job k) → j1.arr = a → alone b n j1 y.w = .ok (j, w') →
      ∃ m z, TRuns b Thr.init (es ++ workN i m) z ∧ z.w = w' ∧ z.job i = some j ∧ (∀ k, k ≠ i → z.job k = x.job k) ∧ j.arr = a := by
    intro n
    induction n with
    | zero => intro es y j1 hy hj hk har hal; cases hal; exact ⟨0, y, by simpa [workN] using hy, rfl, hj, hk, har⟩
    | succ n ih =>
      intro es y j1 hy hj hk har hal
      simp only [alone] at hal
      cases hfin : j1.finished with
      | true =>
        have hc : j1.cur = none := by unfold Job.finished at hfin; cases hc : j1.cur <;> simp_all
        have ht : j1.todo = [] := by unfold Job.finished at hfin; cases ht : j1.todo <;> simp_all
        have hadv : advance b j1 y.w = .ok (j1, y.w) := by unfold advance; rw [hc, ht]
        rw [hadv] at hal
        exact ih hy hj hk har hal
      | false =>
        cases e : advance b j1 y.w with
        | error e' => rw [e] at hal; cases hal
        | ok p =>
          obtain ⟨j3, w3⟩ := p
          rw [e] at hal
          change alone b n j3 w3 = _ at hal
          obtain ⟨D1, h1⟩ := hy.inv hb hg
          obtain ⟨j2, w2, D2, e2, a2, _⟩ := advance_ok hb hg h1.inv h1.nc (h1.jobs i j1 hj)
          rw [e] at e2; cases e2
          obtain ⟨m, z, hz, h2, h3, h4, h5⟩ := ih (es := es ++ [.worked i]) (y := ⟨w3, upd y.job i j3⟩) (.step hy (.works hj hfin e)) (upd_same _ _ _) (fun k hk' => by simp only [upd_ne _ _ hk']; exact hk k hk')
            (a2.arr.trans har) hal
          refine ⟨m + 1, z, ?_, h2, h3, h4, h5⟩
          have : es ++ workN i (m + 1) = (es ++ [.worked i]) ++ workN i m := by simp [workN, List.replicate_succ]
          rw [this]; exact hz
  have harr0 : j0.arr = a := by
    obtain ⟨j', e', harr, _, _⟩ := begin_ok h.inv ha hargs.1
    rw [e0] at e'; cases e'; exact harr
  obtain ⟨m, z, hz, hw, hj, hk, har⟩ := key n hr1 (upd_same _ _ _) (fun k hk => upd_ne _ _ hk) harr0 e1
  refine ⟨m, ⟨z.w, fun k => if k = i then none else z.job k⟩, w', ?_, em, hw, fun k => ?_⟩
  · have := TRunsBy.step hz (.returns hj hf)
    rw [har] at this
    exact this
  · simp only
    split
    · rename_i he; rw [he, hi]
    · rename_i he; exact hk k he

/-! ### any backend, kernel by kernel -/

/-- C73 (any backend, each kernel run as a whole): after any thread's `a.materialize()` has returned, `a.tolist()` returns the array's value, whatever all threads do. -/
theorem C73_computes_kernels_partial {b : Backend V} (hb : Faithful b) {es : List (TEvent V)} {x : TWorld V} (hr : KRuns b Thr.init es x) {i a : Nat} (he : .returned i a ∈ es) (hno : NoOffsetReshape x.w.g a) :
    ∃ w', step b x.w (.tolist a) = .ok (.list (value b x.w a).toNested, w') := by
  have h := (hr.invK hb (.init b)).1
  rw [List.nil_append] at h
  obtain ⟨ha, hav⟩ := h.ret i a he
  obtain ⟨l, cpu, ev, e, _, _, hl⟩ := tolist_ok h.inv.winv ha hav
  refine ⟨{ x.w with cpu := cpu, ev := ev }, ?_⟩
  rw [step_eq (by simpa [Call.arrays] using ha)]
  simp only [exec1, e, hl hno]
  rfl

/-- C73 (any backend, each kernel run as a whole): what is read is right at any time: nobody sees parts of an array. -/
theorem C73_reads_kernels {b : Backend V} (hb : Faithful b) {es : List (TEvent V)} {x : TWorld V} (hr : KRuns b Thr.init es x) {a : Nat} (hno : NoOffsetReshape x.w.g a) {o : Out V} {w' : World V}
    (hs : step b x.w (.tolist a) = .ok (o, w')) : o = .list (value b x.w a).toNested := by
  have h := (hr.invK hb (.init b)).1
  obtain ⟨ha, l, rfl, ht⟩ := tolist_step hs
  have hav : Avail b x.w (base x.w.g a) := by
    unfold tolist ensureCpu at ht
    cases hc : cpuBuf x.w (base x.w.g a) with
    | some l' => exact .inl (by rw [hc]; rfl)
    | none =>
      rw [hc] at ht
      simp only [bind, Except.bind] at ht
      split at ht
      · cases ht
      · rename_i hh
        split at hh
        · rename_i hg
          split at hh
          · rename_i l' hd
            exact .inr ⟨by simpa using hg, by rw [hd]; rfl⟩
          · cases hh
        · cases hh
  obtain ⟨l', cpu, ev, e, _, _, hl⟩ := tolist_ok h.inv.winv ha hav
  rw [ht] at e
  cases e
  rw [hl hno]; rfl

/-- C73 (any backend): no thread changes an existing array. -/
theorem C73_keeps_kernels {b : Backend V} (hb : Faithful b) {es es' : List (TEvent V)} {x y : TWorld V} (hr : KRuns b Thr.init es x) (hy : KRuns b x es' y) {a : Nat} (ha : a < x.w.g.length) :
    a < y.w.g.length ∧ y.w.g.shape a = x.w.g.shape a ∧ y.w.g.ctx a = x.w.g.ctx a ∧ value b y.w a = value b x.w a := by
  obtain ⟨h, l⟩ := hy.invK hb (hr.invK hb (.init b)).1
  exact ⟨Nat.lt_of_lt_of_le ha l.ext.length, l.ext.shape ha, l.ext.ctx ha, den_ext b.A l.ext h.inv.winv.wf ha⟩

theorem runs_todo {b : Backend V} (hb : Faithful b) {i : Nat} : ∀ (todo : List (Nat × Schedule)) {es : List (TEvent V)} {x : TWorld V} {j : Job V}, KRuns b Thr.init es x → x.job i = some j → j.todo = todo →
    ∃ y, KRuns b Thr.init (es ++ workN i todo.length) y ∧ y.job i = some { j with todo := [] } ∧ (∀ k, k ≠ i → y.job k = x.job k) ∧
      (x.w.g = j.g → todo.foldlM (runFunc b j.t (j.a + 2)) x.w = .ok y.w) := by
  intro todo
  induction todo with
  | nil => intro es x j hr hj ht; exact ⟨x, by simpa [workN] using hr, by rw [hj, ← ht], fun _ _ => rfl, fun _ => rfl⟩
  | cons p todo ih =>
    intro es x j hr hj ht
    have h := (hr.invK hb (.init b)).1
    obtain ⟨w1, e, s, _, _⟩ := runWhole_ok hb h.inv.winv h.nc (h.jobs i j hj) ht
    have hadv : advanceWhole b j x.w = .ok ({ j with todo := todo }, w1) := by unfold advanceWhole; rw [ht]; simp only [e, Except.map]
    obtain ⟨y, h1, h2, h3, h4⟩ := ih (es := es ++ [.worked i]) (x := ⟨w1, upd x.job i { j with todo := todo }⟩) (j := { j with todo := todo })
      (.step hr (.works hj (by unfold Job.finished; simp [ht]) hadv)) (upd_same _ _ _) rfl
    refine ⟨y, ?_, h2, fun k hk => by rw [h3 k hk]; exact upd_ne _ _ hk, fun hg => ?_⟩
    · have : es ++ workN i (p :: todo).length = (es ++ [.worked i]) ++ workN i todo.length := by simp [workN, List.replicate_succ]
      rw [this]; exact h1
    · have e' : runFunc b j.t (j.a + 2) x.w p = .ok w1 := by
        rw [← e]
        unfold runFunc runWhole
        rw [hg]
        rfl
      rw [List.foldlM_cons, e']
      exact h4 (s.g.trans hg)

/-- C73 (any backend): a thread in the middle of `a.materialize()` returns after finitely many steps of its own. -/
theorem C73_returns_kernels {b : Backend V} (hb : Faithful b) {es : List (TEvent V)} {x : TWorld V} (hr : KRuns b Thr.init es x) {i : Nat} {j : Job V} (hj : x.job i = some j) :
    ∃ n y, KRuns b Thr.init (es ++ workN i n ++ [.returned i j.arr]) y ∧ y.job i = none := by
  obtain ⟨y, h1, h2, _⟩ := runs_todo hb _ hr hj rfl
  have hc := ((hr.invK hb (.init b)).1.jobs i j hj).cur
  have hf : ({ j with todo := [] } : Job V).finished = true := by unfold Job.finished; rw [hc]; rfl
  exact ⟨j.todo.length, ⟨y.w, fun k => if k = i then none else y.job k⟩, TRunsBy.step h1 (TStepBy.returns (j := { j with todo := [] }) h2 hf), by simp⟩

theorem begin_mat {b : Backend V} {arr : Nat} {w w1 : World V} {j : Job V} : ∀ (fuel a : Nat), begin_ b arr fuel w a = .ok (j, w1) →
    materializeF b fuel w a = j.todo.foldlM (runFunc b j.t (j.a + 2)) w1 ∧ w1.g = j.g ∧ j.cur = none ∧ j.arr = arr := by
  intro fuel
  induction fuel with
  | zero => intro a h; cases h
  | succ fuel ih =>
    intro a h
    unfold begin_ at h
    unfold materializeF
    split at h
    · rename_i hc
      cases h
      rw [if_pos hc]
      exact ⟨rfl, rfl, rfl, rfl⟩
    · rename_i hc
      rw [if_neg hc]
      split at h
      · rename_i hv
        rw [if_pos hv]
        split at h
        · rename_i y _ hx
          rw [hx]
          exact ih y h
        · cases h
      · rename_i hv
        rw [if_neg hv]
        cases hcv : Algo.convert w.g a with
        | error e => rw [hcv] at h; cases h
        | ok p =>
          obtain ⟨funcs, t⟩ := p
          rw [hcv] at h
          simp only [bind, Except.bind] at h ⊢
          cases hs : schedAll b.isGpu t funcs with
          | error e => rw [hs] at h; cases h
          | ok scheds =>
            rw [hs] at h
            cases h
            exact ⟨rfl, rfl, rfl, rfl⟩

/-- C73 (any backend): a thread whose `materialize` nobody interrupts does what `materialize` does in a program with one thread. -/
theorem C73_alone_kernels {b : Backend V} (hb : Faithful b) {es : List (TEvent V)} {x : TWorld V} (hr : KRuns b Thr.init es x) {i a : Nat} (hi : x.job i = none) (ha : a < x.w.g.length)
    (hargs : ArgsOK b x.w (.materialize a)) : ∃ n y, KRuns b Thr.init (es ++ [.began i a] ++ workN i n ++ [.returned i a]) y ∧ materialize b x.w a = .ok y.w ∧ ∀ k, y.job k = x.job k := by
  have h := (hr.invK hb (.init b)).1
  obtain ⟨j, e, harr, _, _⟩ := beginK_ok h.inv ha hargs
  obtain ⟨hm, hg, hc, _⟩ := begin_mat _ _ e
  have hr1 : KRuns b Thr.init (es ++ [.began i a]) ⟨_, upd x.job i j⟩ := .step hr (.begins hi ha hargs e)
  obtain ⟨y, h1, h2, h3, h4⟩ := runs_todo hb _ hr1 (upd_same _ _ _) rfl
  have hf : ({ j with todo := [] } : Job V).finished = true := by unfold Job.finished; rw [hc]; rfl
  refine ⟨j.todo.length, ⟨y.w, fun k => if k = i then none else y.job k⟩, ?_, ?_, fun k => ?_⟩
  · have := TRunsBy.step h1 (TStepBy.returns (j := { j with todo := [] }) h2 hf)
    simp only [harr] at this
    exact this
  · unfold materialize
    rw [hm]
    exact h4 hg
  · simp only
    split
    · rename_i he; rw [he, hi]
    · rename_i he
      rw [h3 k he]; exact upd_ne _ _ he

/-! ### generating kernels at the same time -/

theorem race_left {α β : Type} (k : Gen α) (l : Gen β) (s : List Bool) (w : W) : Gen.race (List.replicate (k.acts w) true ++ s) k l w =
    Gen.race s (match (k.run w).1 with | .ok a => .ret a | .error e => .fail e) l (k.run w).2 := by
  induction k generalizing w with
  | ret a => rfl
  | fail e => rfl
  | clear k ih => simp only [Gen.acts, List.replicate_succ, List.cons_append, Gen.race, Gen.act, Gen.run]; exact ih _
  | writeln x k ih => simp only [Gen.acts, List.replicate_succ, List.cons_append, Gen.race, Gen.act, Gen.run]; exact ih _
  | nest k ih => simp only [Gen.acts, List.replicate_succ, List.cons_append, Gen.race, Gen.act, Gen.run]; exact ih _
  | unnest k ih => simp only [Gen.acts, List.replicate_succ, List.cons_append, Gen.race, Gen.act, Gen.run]; exact ih _
  | tmpvar k ih => simp only [Gen.acts, List.replicate_succ, List.cons_append, Gen.race, Gen.act, Gen.run]; exact ih _ _
  | render k ih => simp only [Gen.acts, List.replicate_succ, List.cons_append, Gen.race, Gen.act, Gen.run]; exact ih _ _

theorem race_right {α β : Type} (k : Gen α) (l : Gen β) (w : W) : Gen.race (List.replicate (l.acts w) false) k l w =
    (k, (match (l.run w).1 with | .ok a => .ret a | .error e => .fail e), (l.run w).2) := by
  induction l generalizing w with
  | ret a => rfl
  | fail e => rfl
  | clear l ih => simp only [Gen.acts, List.replicate_succ, Gen.race, Gen.act, Gen.run]; exact ih _
  | writeln x l ih => simp only [Gen.acts, List.replicate_succ, Gen.race, Gen.act, Gen.run]; exact ih _
  | nest l ih => simp only [Gen.acts, List.replicate_succ, Gen.race, Gen.act, Gen.run]; exact ih _
  | unnest l ih => simp only [Gen.acts, List.replicate_succ, Gen.race, Gen.act, Gen.run]; exact ih _
  | tmpvar l ih => simp only [Gen.acts, List.replicate_succ, Gen.race, Gen.act, Gen.run]; exact ih _ _
  | render l ih => simp only [Gen.acts, List.replicate_succ, Gen.race, Gen.act, Gen.run]; exact ih _ _

/-- C73: if two threads generate their kernels one after the other, each gets the text that it would get alone; the second one continues the numbering of variables. -/
theorem C73_turns {L : Lang} {name name' : Str} {g g' : Graph V} {t t' : Tbl} {f f' : Func} {sch sch' : Schedule} {args args' : Codegen.Args} {buf : List Str} {n n1 n2 : Nat} {text text' : Str}
    (h : Text.codegen L name g t f sch args n = .ok (text, n1)) (h' : Text.codegen L name' g' t' f' sch' args' n1 = .ok (text', n2)) :
    ∃ x y w, Gen.race (List.replicate x true ++ List.replicate y false) (Gen.codegen L name g t f sch args) (Gen.codegen L name' g' t' f' sch' args') ⟨buf, 0, n⟩ = (.ret text, .ret text', w) ∧
      w.ind = 0 ∧ w.tmp = n2 := by
  have h0 := Gen.codegen_at L name g t f sch args buf 0 n
  rw [h] at h0
  obtain ⟨ls, e, _, hr⟩ := h0
  have h1 := Gen.codegen_at L name' g' t' f' sch' args' (ls.map (Gen.shift 0)) 0 n1
  rw [h'] at h1
  obtain ⟨ls', e', _, hr'⟩ := h1
  have hs : ∀ l : List Str, l.map (Gen.shift 0) = l := fun l => by
    have : Gen.shift 0 = id := by funext s; simp [Gen.shift]
    rw [this, List.map_id]
  refine ⟨(Gen.codegen L name g t f sch args).acts ⟨buf, 0, n⟩, (Gen.codegen L name' g' t' f' sch' args').acts ⟨ls.map (Gen.shift 0), 0, n1⟩, ⟨ls'.map (Gen.shift 0), 0, n2⟩, ?_, rfl, rfl⟩
  rw [race_left, hr]
  simp only
  rw [race_right, hr', e, e', hs, hs]

/-- A program with two sums and two products. -/
def sumProg : List (Call (Sem.Py Rat)) := [.array (.node [.leaf (.int 2), .leaf (.int 3)]), .array (.node [.leaf (.int 5), .leaf (.int 7)]), .bin .add 0 1, .bin .mul 0 1]

def sumWorld : World (Sem.Py Rat) := Demo.afterOn pyFrac sumProg

/-- The generation of the last kernel of `materialize` on array `a`, and its schedule. -/
def genFor (digest : Str) (w : World V) (a : Nat) : Option (Gen Str × Schedule) := do
  let (funcs, t) ← (Algo.convert w.g a).toOption
  let scheds ← (schedAll false t funcs).toOption
  let p ← (funcs.zip scheds).getLast?
  let F ← t p.1
  some (Gen.codegen .python (Text.kernName digest) w.g t F p.2 ⟨(Algo.args F.expr).1, (Algo.args F.expr).2⟩, p.2)

/-- Thread 1 writes three lines, thread 2 begins (and clears them), writes until its innermost block is open, thread 1 opens a block …; then each goes on. -/
def sumSchedule : List Bool := List.replicate 3 true ++ List.replicate 4 false ++ [true] ++ List.replicate 7 false ++ List.replicate 7 true ++ List.replicate 3 false

/-- What the two threads get, and what the kernel of thread 2 puts into array 3. -/
def sumRace : Option (Str × Option (List (Sem.Py Rat))) := do
  let k ← genFor "a".toList sumWorld 2
  let l ← genFor "b".toList sumWorld 3
  match (Gen.race sumSchedule k.1 l.1 ⟨[], 0, 0⟩).2.1 with
  | .ret s => match Src.invoke pyRun ⟨sumWorld, []⟩ l.2 s 3 [0, 1] with
    | .ok s' => some (s, s'.w.cpu 3)
    | .error _ => none
  | _ => none

/-- C73 is false when two threads generate kernels at the same time: one thread materializes `x + y`, the other `x * y`, nobody raises, and the kernel that the second one is given – a well-formed one, under its own name – computes `x + y`. -/
theorem C73_counterexample : Reachable pyFrac sumWorld ∧ ∃ (k l : Gen Str) (sch sch' : Schedule) (s : List Bool) (bad : Str) (x : SWorld (Sem.Py Rat)),
    genFor "a".toList sumWorld 2 = some (k, sch) ∧ genFor "b".toList sumWorld 3 = some (l, sch') ∧ (Gen.race s k l ⟨[], 0, 0⟩).2.1 = .ret bad ∧
    Src.invoke pyRun ⟨sumWorld, []⟩ sch' bad 3 [0, 1] = .ok x ∧ x.w.cpu 3 = some [.int 7, .int 10] ∧ (value pyFrac sumWorld 3).flatten = [.int 10, .int 21] := by
  refine ⟨Demo.reachOn (pythonBackend_faithful _) (by decide +kernel), ?_⟩
  have h : sumRace.map (·.2) = some (some [.int 7, .int 10]) := by decide +kernel
  unfold sumRace at h
  cases h2 : genFor "a".toList sumWorld 2 with
  | none => rw [h2] at h; cases h
  | some k =>
    cases h3 : genFor "b".toList sumWorld 3 with
    | none => rw [h2, h3] at h; cases h
    | some l =>
      rw [h2, h3] at h
      simp only [Option.bind_eq_bind, Option.bind_some] at h
      split at h
      · rename_i bad hb
        split at h
        · rename_i x hx
          exact ⟨k.1, l.1, k.2, l.2, sumSchedule, bad, x, rfl, rfl, hb, hx, by simpa using h, by decide +kernel⟩
        · cases h
      · cases h

/-- C73 is false when two threads fill the parameters of kernels at the same time (backend.py:35 tests, backend.py:36 assigns): both find that the array has no buffer; the first assigns one, computes all of it and is done; then the second one
puts an empty buffer in its place. -/
theorem C73_counterexample_fill (zeros ws : List Int) : ∃ s q o, Fill.race zeros (ws.zipIdx.map fun p => ((p.2 : Int), p.1)) (ws.zipIdx.map fun p => ((p.2 : Int), p.1)) s .test .test ⟨none, []⟩ = (.done, q, o) ∧ Fill.content o = some zeros := by
  generalize hw : (ws.zipIdx.map fun p => ((p.2 : Int), p.1)) = l
  have key : ∀ (k : List (Int × Int)) (lst : List Int), ∃ lst', Fill.race zeros l l (List.replicate (k.length + 1) true) (.store 0 k) .assign ⟨some 0, [lst]⟩ = (.done, .assign, ⟨some 0, [lst']⟩) := by
    intro k
    induction k with
    | nil => intro lst; exact ⟨lst, rfl⟩
    | cons p k ih => intro lst; exact ih _
  obtain ⟨lst', hk⟩ := key l zeros
  have happ : ∀ (s s' : List Bool) (p q : Fill.Pc Int) (o : Fill.Obj Int), Fill.race zeros l l (s ++ s') p q o = Fill.race zeros l l s' (Fill.race zeros l l s p q o).1 (Fill.race zeros l l s p q o).2.1 (Fill.race zeros l l s p q o).2.2 := by
    intro s
    induction s with
    | nil => intros; rfl
    | cons x s ih => intro s' p q o; cases x <;> exact ih _ _ _ _
  refine ⟨[true, false, true, true] ++ (List.replicate (l.length + 1) true ++ [false]), .fetch, ⟨some 1, [lst', zeros]⟩, ?_, rfl⟩
  rw [happ, happ]
  have h0 : Fill.race zeros l l [true, false, true, true] .test .test ⟨none, []⟩ = (.store 0 l, .assign, ⟨some 0, [zeros]⟩) := rfl
  rw [h0]
  simp only
  rw [hk]
  rfl

/-! ### examples -/

/-- What can be done in an example. -/
inductive TAct (V : Type)
  | begin (i a : Nat)
  | work (i : Nat)
  | ret (i : Nat)
  | drop (i : Nat)
  | call (c : Call V)

/-- Doing it; `none` if it is not a step. -/
def tdo (adv : Job V → World V → Except Err (Job V × World V)) (b : Backend V) (x : TWorld V) : TAct V → Option (TEvent V × TWorld V)
  | .begin i a => if x.job i |>.isNone then if a < x.w.g.length then if argsOKb b x.w (.materialize a) then match begin_ b a (a + 1) x.w a with
    | .ok (j, w) => some (.began i a, ⟨w, upd x.job i j⟩)
    | .error _ => none else none else none else none
  | .work i => match x.job i with
    | some j => if j.finished = false then match adv j x.w with
      | .ok (j', w) => some (.worked i, ⟨w, upd x.job i j'⟩)
      | .error _ => none else none
    | none => none
  | .ret i => match x.job i with
    | some j => if j.finished = true then some (.returned i j.arr, ⟨x.w, fun k => if k = i then none else x.job k⟩) else none
    | none => none
  | .drop i => if (x.job i).isSome then some (.raised i, ⟨x.w, fun k => if k = i then none else x.job k⟩) else none
  | .call c => if c.isMat = false then if c.isReset = false then if ∀ a ∈ c.arrays, a < x.w.g.length then if argsOKb b x.w c then match next b x.w c with
    | some w => some (.called c, ⟨w, x.job⟩)
    | none => none else none else none else none else none

def trun (adv : Job V → World V → Except Err (Job V × World V)) (b : Backend V) : TWorld V → List (TAct V) → Option (List (TEvent V) × TWorld V)
  | x, [] => some ([], x)
  | x, t :: ts => match tdo adv b x t with
    | some (e, y) => (trun adv b y ts).map fun r => (e :: r.1, r.2)
    | none => none

theorem tdo_sound {adv : Job V → World V → Except Err (Job V × World V)} {b : Backend V} {x y : TWorld V} (hw : WF x.w.g) {t : TAct V} {e : TEvent V} (h : tdo adv b x t = some (e, y)) : TStepBy adv b x e y := by
  cases t with
  | begin i a =>
    simp only [tdo] at h
    split at h <;> [rename_i h1; cases h]
    split at h <;> [rename_i h2; cases h]
    split at h <;> [rename_i h3; cases h]
    split at h <;> [rename_i j w h4; cases h]
    cases h
    exact .begins (by simpa using h1) h2 (argsOKb_sound (by simpa [Call.arrays] using h2) hw h3) h4
  | work i =>
    simp only [tdo] at h
    split at h <;> [rename_i j h1; cases h]
    split at h <;> [rename_i h2; cases h]
    split at h <;> [rename_i j' w h3; cases h]
    cases h
    exact .works h1 h2 h3
  | ret i =>
    simp only [tdo] at h
    split at h <;> [rename_i j h1; cases h]
    split at h <;> [rename_i h2; cases h]
    cases h
    exact .returns h1 h2
  | drop i =>
    simp only [tdo] at h
    split at h <;> [rename_i h1; cases h]
    cases h
    exact .raises h1
  | call c =>
    simp only [tdo] at h
    split at h <;> [rename_i h1; cases h]
    split at h <;> [rename_i h2; cases h]
    split at h <;> [rename_i h3; cases h]
    split at h <;> [rename_i h4; cases h]
    split at h <;> [rename_i w h5; cases h]
    cases h
    exact .calls h1 (fun h => by rw [h2] at h; cases h) (.inr (argsOKb_sound h3 hw h4)) h5

theorem trun_sound_by {adv : Job V → World V → Except Err (Job V × World V)} {b : Backend V} (hwf : ∀ {es : List (TEvent V)} {x : TWorld V}, TRunsBy adv b Thr.init es x → WF x.w.g) : ∀ (ts : List (TAct V)) {es0 es : List (TEvent V)} {x y : TWorld V},
    TRunsBy adv b Thr.init es0 x → trun adv b x ts = some (es, y) → TRunsBy adv b Thr.init (es0 ++ es) y := by
  intro ts
  induction ts with
  | nil => intro es0 es x y hr h; cases h; simpa using hr
  | cons t ts ih =>
    intro es0 es x y hr h
    simp only [trun] at h
    split at h <;> [rename_i e z hz; cases h]
    obtain ⟨r, hr', e'⟩ := Option.map_eq_some_iff.1 h
    cases e'
    have := ih (hr.step (tdo_sound (hwf hr) hz)) hr'
    simpa using this

theorem trun_sound {b : Backend V} (hb : Faithful b) (hg : b.isGpu = false) (ts : List (TAct V)) {es0 es : List (TEvent V)} {x y : TWorld V} (hr : TRuns b Thr.init es0 x) (h : trun (advance b) b x ts = some (es, y)) : TRuns b Thr.init (es0 ++ es) y :=
  trun_sound_by (fun hr => by obtain ⟨D, hi⟩ := TRunsBy.inv hb hg hr; exact hi.inv.inv.winv.wf) ts hr h

theorem krun_sound {b : Backend V} (hb : Faithful b) (ts : List (TAct V)) {es0 es : List (TEvent V)} {x y : TWorld V} (hr : KRuns b Thr.init es0 x) (h : trun (advanceWhole b) b x ts = some (es, y)) : KRuns b Thr.init (es0 ++ es) y :=
  trun_sound_by (fun hr => (TRunsBy.invK hb (.init b) hr).1.inv.winv.wf) ts hr h

/-- `[[1, 2], [3, 4]]`, its row sums, and the matrix divided into them. -/
def thrProg : List (TAct Int) := [.call (.array (.node [.node [.leaf 1, .leaf 2], .node [.leaf 3, .leaf 4]])), .call (.sum 0 (.int 1) true), .call (.bin .mul 0 1)]

/-- Two threads compute the products at once: both find their first kernel before either starts it, both compute the row sums, store by store, then both the products; thread 2 is at its first product when thread 1 returns. -/
def thrRace : List (TAct Int) := [.begin 1 3, .begin 2 3, .work 1, .work 2, .work 1, .work 1, .work 2, .work 2, .work 1, .work 1, .work 1, .work 1]

def thrOther : List (TAct Int) := [.work 1, .work 1, .work 1, .work 2, .work 2, .work 2, .work 2, .work 1, .work 2, .work 1, .ret 1]

/-- What is left to do in an example: whether thread `i` has returned from materializing `a`, which stores the running kernel of thread `k` has to do, what reading `a` gives. -/
def thrLook (cs : List (TAct Int)) (i a k : Nat) : Option (Bool × Option (Option (Nat × List (Int × Int))) × Option (Nested Int)) := do
  let r ← trun (advance Demo.py) Demo.py Thr.init cs
  some (r.1.any fun e => match e with
    | .returned i' a' => i' == i && a' == a
    | _ => false, (r.2.job k).map fun j => j.cur, match step Demo.py r.2.w (.tolist a) with
    | .ok (.list l, _) => some l
    | _ => none)

theorem thrLook_runs {cs : List (TAct Int)} {i a k : Nat} {p : Bool × Option (Option (Nat × List (Int × Int))) × Option (Nested Int)} (h : thrLook cs i a k = some p) :
    ∃ es x, TRuns Demo.py Thr.init es x ∧ (p.1 = true → .returned i a ∈ es) ∧ (x.job k).map (fun j => j.cur) = p.2.1 ∧ ∀ l, p.2.2 = some l → step Demo.py x.w (.tolist a) = .ok (.list l, x.w) := by
  unfold thrLook at h
  cases ht : trun (advance Demo.py) Demo.py Thr.init cs with
  | none => rw [ht] at h; cases h
  | some r =>
    rw [ht] at h
    cases h
    have hr := trun_sound Demo.py_faithful rfl cs (es0 := []) .refl ht
    refine ⟨r.1, r.2, by simpa using hr, fun h => ?_, rfl, fun l h => ?_⟩
    · obtain ⟨e, he, h⟩ := List.any_eq_true.1 h
      split at h
      · simp only [Bool.and_eq_true, beq_iff_eq] at h
        rw [h.1, h.2] at he
        exact he
      · cases h
    · simp only at h
      split at h
      · rename_i l' w' hs
        cases h
        rw [hs]
        have : w' = r.2.w := by
          unfold step at hs
          split at hs
          · simp only [exec1] at hs
            cases ht : tolist Demo.py r.2.w a with
            | error e => rw [ht] at hs; cases hs
            | ok p => rw [ht] at hs; cases hs; exact (tolist_cpu rfl ht).1
          · cases hs
        rw [this]
      · cases h

set_option synthInstance.maxSize 1000 in
/-- `C73_computes_partial`, `C73_reads`: while both threads compute the products, reading gives zeros; when thread 1 has returned and thread 2 is still storing, every element is there; if an exception ends thread 1 in the middle and nobody goes on, two products stay 0. -/
example : (thrLook (thrProg ++ thrRace) 1 3 2).map (fun p => (p.1, p.2.1, p.2.2.map leaves)) = some (false, some (some (1, [(1, 7)])), some [0, 0, 0, 0]) ∧
    (thrLook (thrProg ++ thrRace ++ thrOther) 1 3 2).map (fun p => (p.1, p.2.1, p.2.2.map leaves)) = some (true, some (some (3, [(1, 6), (2, 21), (3, 28)])), some [3, 6, 21, 28]) ∧
    (thrLook (thrProg ++ thrRace ++ [.work 1, .work 1, .drop 1]) 1 3 1).map (fun p => (p.1, p.2.1, p.2.2.map leaves)) = some (false, none, some [3, 6, 0, 0]) := by
  refine ⟨?_, ?_, ?_⟩ <;> decide +kernel

/-- `C73_keeps`: thread 2 is in the middle of the products when another thread makes a new array from them. -/
example : (trun (advance Demo.py) Demo.py Thr.init (thrProg ++ thrRace ++ thrOther ++ [.call (.sum 3 (.int 0) false), .work 2])).map (fun r => (r.2.w.g.length, r.2.w.g.shape 3)) = some (5, [2, 2]) := by decide +kernel

/-- `C73_returns`, `C73_alone`: a thread in the middle, and one that has not begun. -/
example : ∃ es x, TRuns Demo.py Thr.init es x ∧ (∃ j, x.job 2 = some j ∧ j.finished = false) ∧ x.job 1 = none ∧ 3 < x.w.g.length ∧ ArgsOK Demo.py x.w (.materialize 3) := by
  cases ht : trun (advance Demo.py) Demo.py Thr.init (thrProg ++ thrRace ++ thrOther) with
  | none => exact absurd ht (by decide +kernel)
  | some r =>
    have hr := trun_sound Demo.py_faithful rfl _ (es0 := []) .refl ht
    have h : (trun (advance Demo.py) Demo.py Thr.init (thrProg ++ thrRace ++ thrOther)).map (fun r => ((r.2.job 2).map fun j => j.finished, (r.2.job 1).isNone, decide (3 < r.2.w.g.length), argsOKb Demo.py r.2.w (.materialize 3))) = some (some false, true, true, true) := by
      decide +kernel
    rw [ht] at h
    simp only [Option.map_some, Option.some.injEq, Prod.mk.injEq] at h
    obtain ⟨h1, h2, h3, h4⟩ := h
    obtain ⟨D, hi⟩ := hr.inv Demo.py_faithful rfl
    obtain ⟨j, hj, hf⟩ := Option.map_eq_some_iff.1 h1
    have h3' := of_decide_eq_true h3
    exact ⟨_, r.2, hr, ⟨j, hj, hf⟩, by simpa using h2, h3', argsOKb_sound (by simpa [Call.arrays] using h3') hi.inv.inv.winv.wf h4⟩

/-- Two threads compute the products at once, kernel by kernel; thread 2 has still its second kernel to run when thread 1 returns. -/
def kthrRace : List (TAct Int) := [.begin 1 3, .begin 2 3, .work 2, .work 1, .work 1, .ret 1]

/-- As `thrLook`: on a GPU backend, kernel by kernel. -/
noncomputable def kthrLook (cs : List (TAct Int)) (i a k : Nat) : Option (Bool × Option Nat × Option (Nested Int)) := do
  let r ← trun (advanceWhole Demo.cuda) Demo.cuda Thr.init cs
  some (r.1.any fun e => match e with
    | .returned i' a' => i' == i && a' == a
    | _ => false, (r.2.job k).map fun j => j.todo.length, match step Demo.cuda r.2.w (.tolist a) with
    | .ok (.list l, _) => some l
    | _ => none)

/-- `C73_computes_kernels_partial`, `C73_reads_kernels`: thread 1 has returned, thread 2 has one kernel left; before, when the row sums are there but not the products, reading the products fails. -/
example : (kthrLook (thrProg ++ kthrRace) 1 3 2).map (fun p => (p.1, p.2.1, p.2.2.map leaves)) = some (true, some 1, some [3, 6, 21, 28]) ∧
    (kthrLook (thrProg ++ kthrRace.take 4) 1 3 2).map (fun p => (p.1, p.2.1, p.2.2.map leaves)) = some (false, some 1, none) := by
  refine ⟨?_, ?_⟩ <;> decide +kernel

/-- `C73_keeps_kernels`, `C73_returns_kernels`, `C73_alone_kernels`: a thread in the middle, and one that has not begun, on a GPU backend. -/
example : ∃ es x, KRuns Demo.cuda Thr.init es x ∧ (∃ j, x.job 2 = some j ∧ j.finished = false) ∧ x.job 1 = none ∧ 3 < x.w.g.length ∧ ArgsOK Demo.cuda x.w (.materialize 3) := by
  cases ht : trun (advanceWhole Demo.cuda) Demo.cuda Thr.init (thrProg ++ kthrRace) with
  | none => exact absurd ht (by decide +kernel)
  | some r =>
    have hr := krun_sound Demo.cuda_faithful _ (es0 := []) .refl ht
    have h : (trun (advanceWhole Demo.cuda) Demo.cuda Thr.init (thrProg ++ kthrRace)).map (fun r => ((r.2.job 2).map fun j => j.finished, (r.2.job 1).isNone, decide (3 < r.2.w.g.length), argsOKb Demo.cuda r.2.w (.materialize 3))) =
        some (some false, true, true, true) := by decide +kernel
    rw [ht] at h
    simp only [Option.map_some, Option.some.injEq, Prod.mk.injEq] at h
    obtain ⟨h1, h2, h3, h4⟩ := h
    obtain ⟨j, hj, hf⟩ := Option.map_eq_some_iff.1 h1
    have h3' := of_decide_eq_true h3
    exact ⟨_, r.2, hr, ⟨j, hj, hf⟩, by simpa using h2, h3', argsOKb_sound (by simpa [Call.arrays] using h3') (TRunsBy.invK Demo.cuda_faithful (.init _) hr).1.inv.winv.wf h4⟩

/-- `C73_turns`: the two kernels of `C73_counterexample`, one after the other. -/
example : (do
    let (funcs, t) ← (Algo.convert sumWorld.g 3).toOption
    let scheds ← (schedAll false t funcs).toOption
    let p ← (funcs.zip scheds).getLast?
    let F ← t p.1
    let (s, n) ← (Text.codegen .python (Text.kernName "b".toList) sumWorld.g t F p.2 ⟨(Algo.args F.expr).1, (Algo.args F.expr).2⟩ 0).toOption
    let (s', n') ← (Text.codegen .python (Text.kernName "b".toList) sumWorld.g t F p.2 ⟨(Algo.args F.expr).1, (Algo.args F.expr).2⟩ n).toOption
    some (s.length, n, s'.length, n')) = some (154, 1, 154, 2) := by decide +kernel

/-- `C73_counterexample_fill`: three elements. -/
example : ∃ s q o, Fill.race [0, 0, 0] [(0, 5), (1, 6), (2, (7 : Int))] [(0, 5), (1, 6), (2, 7)] s .test .test ⟨none, []⟩ = (.done, q, o) ∧ Fill.content o = some [0, 0, 0] :=
  C73_counterexample_fill [0, 0, 0] [5, 6, 7]

end Whale.Props
