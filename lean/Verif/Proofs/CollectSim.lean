import Verif.Proofs.Collect
/-
Garbage collection is invisible: a program run with collections does the same as without.
-/
namespace Whale
open Mat Hist Algo
variable {V : Type}

/-- Two computations that may raise do the same. -/
def RelE {α β : Type} (Q : α → β → Prop) : Except Err α → Except Err β → Prop
  | .ok a, .ok b => Q a b
  | .error e, .error e' => e = e'
  | _, _ => False

theorem RelE.bind {α β γ δ : Type} {Q : α → β → Prop} {S : γ → δ → Prop} {x : Except Err α} {y : Except Err β} {f : α → Except Err γ} {k : β → Except Err δ}
    (h : RelE Q x y) (hk : ∀ a b, Q a b → x = .ok a → RelE S (f a) (k b)) : RelE S (x >>= f) (y >>= k) := by
  cases x <;> cases y <;> simp only [RelE] at h
  · simpa [RelE, Bind.bind, Except.bind] using h
  · exact hk _ _ h rfl

theorem RelE.eq {α : Type} (x : Except Err α) : RelE Eq x x := by cases x <;> simp [RelE]

theorem RelE.mono {α β : Type} {Q S : α → β → Prop} {x : Except Err α} {y : Except Err β} (h : RelE Q x y) (k : ∀ a b, Q a b → S a b) : RelE S x y := by
  cases x <;> cases y <;> simp only [RelE] at h ⊢
  · exact h
  · exact k _ _ h

/-- A device trace without the `free`s. -/
def unfreed (ev : List DevEvent) : List DevEvent := ev.filter fun | .free _ => false | _ => true

/-- World `v` is world `w` except for the data of arrays outside `P` and the `free`s so far. -/
structure Agree (P : Nat → Prop) (w v : World V) : Prop where
  same : v = { w with cpu := v.cpu, dev := v.dev, grad := v.grad, ev := v.ev }
  cpu : ∀ i, P i → v.cpu i = w.cpu i
  dev : ∀ i, P i → v.dev i = w.dev i
  grad : ∀ i, P i → v.grad i = w.grad i
  ev : unfreed v.ev = unfreed w.ev

variable {P : Nat → Prop} {N : Nat}

theorem Agree.cpuBuf {w v : World V} (h : Agree P w v) {i : Nat} (hi : P i) : cpuBuf v i = cpuBuf w i := by
  have hg : v.g = w.g := by rw [h.same]
  unfold Mat.cpuBuf; rw [h.cpu i hi, hg]

theorem Agree.bufLen {w v : World V} (h : Agree P w v) (i : Nat) : bufLen v i = bufLen w i := by
  have hg : v.g = w.g := by rw [h.same]
  unfold Mat.bufLen; rw [hg]

theorem Agree.mk' {w : World V} {c d : Nat → Option (List V)} {r : Nat → Option Nat} {e : List DevEvent} (h1 : ∀ i, P i → c i = w.cpu i) (h2 : ∀ i, P i → d i = w.dev i)
    (h3 : ∀ i, P i → r i = w.grad i) (h4 : unfreed e = unfreed w.ev) : Agree P w { w with cpu := c, dev := d, grad := r, ev := e } := ⟨rfl, h1, h2, h3, h4⟩

theorem upd_agree {α : Type} {f f' : Nat → Option α} (h : ∀ i, P i → f' i = f i) (x : Nat) (v : α) : ∀ i, P i → upd f' x v i = upd f x v i := by
  intro i hi; unfold upd; split
  · rfl
  · exact h i hi

theorem unfreed_snoc {e e' : List DevEvent} (h : unfreed e' = unfreed e) (x : DevEvent) : unfreed (e' ++ [x]) = unfreed (e ++ [x]) := by
  unfold unfreed at *; rw [List.filter_append, List.filter_append, h]

theorem agree_fill {A : Scalar V} {w v : World V} (h : Agree P w v) {i : Nat} (hi : P i) : Agree P (fillCpu A w i) (fillCpu A v i) := by
  unfold fillCpu
  rw [h.cpuBuf hi, h.bufLen]
  split
  · exact h
  · refine ⟨?_, upd_agree h.cpu _ _, h.dev, h.grad, h.ev⟩
    rw [h.same]

theorem agree_fills {A : Scalar V} (l : List Nat) : ∀ {w v : World V}, Agree P w v → (∀ i ∈ l, P i) → Agree P (l.foldl (fillCpu A) w) (l.foldl (fillCpu A) v) := by
  induction l with
  | nil => intro w v h _; exact h
  | cons x l ih => intro w v h hl; exact ih (agree_fill h (hl x (by simp))) (fun i hi => hl i (by simp [hi]))

theorem agree_toDev {b : Backend V} {w v : World V} (h : Agree P w v) {p : Nat × Nat} (hp : P p.1) : RelE (Agree P) (toDev b w p) (toDev b v p) := by
  unfold toDev
  refine RelE.bind (Q := Agree P) ?_ fun w1 v1 h1 _ => ?_
  · unfold alloc
    rw [h.dev _ hp, h.bufLen]
    split
    · exact h
    · split
      · rfl
      · refine ⟨?_, h.cpu, upd_agree h.dev _ _, h.grad, unfreed_snoc h.ev _⟩
        rw [h.same]
  · show Agree P _ _
    unfold htod
    rw [h1.cpuBuf hp]
    split
    · split
      · refine ⟨?_, h1.cpu, upd_agree h1.dev _ _, h1.grad, unfreed_snoc h1.ev _⟩
        rw [h1.same]
      · exact h1
    · exact h1

theorem agree_toDevs {b : Backend V} (l : List (Nat × Nat)) : ∀ {w v : World V}, Agree P w v → (∀ p ∈ l, P p.1) → RelE (Agree P) (l.foldlM (toDev b) w) (l.foldlM (toDev b) v) := by
  induction l with
  | nil => intro w v h _; exact h
  | cons x l ih =>
    intro w v h hl
    rw [List.foldlM_cons, List.foldlM_cons]
    exact (agree_toDev h (hl x (by simp))).bind fun w1 v1 h1 _ => ih h1 (fun i hi => hl i (by simp [hi]))

theorem mapM_opt_congr {α β : Type} {f k : α → Option β} {l : List α} (h : ∀ a ∈ l, f a = k a) : l.mapM f = l.mapM k := by
  induction l with
  | nil => rfl
  | cons a l ih => rw [List.mapM_cons, List.mapM_cons, h a (by simp), ih (fun x hx => h x (by simp [hx]))]

theorem agree_invoke {b : Backend V} {w v : World V} (h : Agree P w v) {sch : Schedule} {K : Kernel} {out : Nat} {ins : List Nat} (hP : ∀ i ∈ out :: ins, P i) :
    RelE (Agree P) (invoke b w sch K out ins) (invoke b v sch K out ins) := by
  unfold invoke
  by_cases h1 : out ∈ ins
  · simp only [h1, if_true]; exact (rfl : Err.badRef = Err.badRef)
  by_cases h2 : K.params.length ≠ (out :: ins).length
  · simp only [h1, if_false, if_pos h2]; exact (rfl : Err.typeError = Err.typeError)
  simp only [h1, if_false, if_neg h2]
  by_cases hg : b.isGpu = true
  · simp only [hg, if_true]
    refine (agree_toDevs ((out :: ins).zipIdx) h (fun p hp => hP _ ?_)).bind fun w1 v1 hv _ => ?_
    · exact (List.mem_zipIdx' hp).2 ▸ List.getElem_mem _
    · have e2 : ins.mapM v1.dev = ins.mapM w1.dev := mapM_opt_congr (fun i hi => hv.dev i (hP i (by simp [hi])))
      rw [hv.dev out (hP out (by simp)), e2]
      have ht : v1.tick = w1.tick := by rw [hv.same]
      split
      · rw [ht]
        split
        · refine ⟨?_, hv.cpu, upd_agree hv.dev _ _, hv.grad, unfreed_snoc hv.ev _⟩
          rw [hv.same]
        · rfl
      · rfl
  · simp only [hg]
    have hv := agree_fills (A := b.A) (out :: ins) h hP
    generalize (out :: ins).foldl (fillCpu b.A) w = w1 at hv
    generalize (out :: ins).foldl (fillCpu b.A) v = v1 at hv
    simp only [Bool.false_eq_true, if_false]
    have e2 : ins.mapM (Mat.cpuBuf v1) = ins.mapM (Mat.cpuBuf w1) := mapM_opt_congr (fun i hi => hv.cpuBuf (hP i (by simp [hi])))
    rw [hv.cpuBuf (hP out (by simp)), e2]
    have ht : v1.tick = w1.tick := by rw [hv.same]
    split
    · rw [ht]
      split
      · refine ⟨?_, upd_agree hv.cpu _ _, hv.dev, hv.grad, hv.ev⟩
        rw [hv.same]
      · rfl
    · rfl

theorem agree_runFunc {b : Backend V} {t : Tbl} {fuel : Nat} {p : Nat × Schedule} {w v : World V} (h : Agree P w v)
    (ht : ∃ F, t p.1 = some F ∧ F.outBuffer = p.1 ∧ (∀ i ∈ p.1 :: ((args F.expr).1 ++ (args F.expr).2), P i) ∧ ∀ d ∈ (args F.expr).2, ∃ D, t d = some D ∧ D.outBuffer = d) :
    RelE (Agree P) (runFunc b t fuel w p) (runFunc b t fuel v p) := by
  obtain ⟨F, hF, hob, hni, hds⟩ := ht
  have houts : outBufs t (args F.expr).2 = .ok ((args F.expr).2.map id) := by
    apply mapM_ok
    intro d hd
    obtain ⟨D, hD, hDb⟩ := hds d hd
    simp only [hD, pure, Except.pure, hDb, id]
  rw [List.map_id] at houts
  rw [← hob] at hni
  have hg : v.g = w.g := by rw [h.same]
  have hc : v.cache = w.cache := by rw [h.same]
  have htm : v.tmp = w.tmp := by rw [h.same]
  have hh : v.hits = w.hits := by rw [h.same]
  unfold runFunc
  simp only [hF, houts]
  refine RelE.bind (Q := Eq) (RelE.eq _) fun _ outs e1 e2 => ?_
  subst e1; cases e2
  rw [hg, hc, htm, hh]
  refine RelE.bind (Q := Eq) (RelE.eq _) fun _ key e1 _ => ?_
  subst e1
  split
  · refine agree_invoke ?_ hni
    refine ⟨?_, h.cpu, h.dev, h.grad, h.ev⟩
    rw [h.same]
  · refine RelE.bind (Q := Eq) (RelE.eq _) fun _ kn e1 _ => ?_
    subst e1
    refine RelE.bind (Q := Agree P) (agree_invoke ?_ hni) fun w1 v1 h1 _ => ?_
    · refine ⟨?_, h.cpu, h.dev, h.grad, h.ev⟩
      rw [h.same]
    · refine ⟨?_, h1.cpu, h1.dev, h1.grad, h1.ev⟩
      rw [h1.same]

theorem agree_runFuncs {b : Backend V} {t : Tbl} {fuel : Nat} (ps : List (Nat × Schedule)) : ∀ {w v : World V}, Agree P w v →
    (∀ p ∈ ps, ∃ F, t p.1 = some F ∧ F.outBuffer = p.1 ∧ (∀ i ∈ p.1 :: ((args F.expr).1 ++ (args F.expr).2), P i) ∧ ∀ d ∈ (args F.expr).2, ∃ D, t d = some D ∧ D.outBuffer = d) →
    RelE (Agree P) (ps.foldlM (runFunc b t fuel) w) (ps.foldlM (runFunc b t fuel) v) := by
  induction ps with
  | nil => intro w v h _; exact h
  | cons x l ih =>
    intro w v h hl
    rw [List.foldlM_cons, List.foldlM_cons]
    exact (agree_runFunc h (hl x (by simp))).bind fun w1 v1 h1 _ => ih h1 (fun i hi => hl i (by simp [hi]))

theorem agree_materialize {b : Backend V} {w v : World V} (h : Agree P w v) (hw : WF w.g) {a : Nat} (ha : a < w.g.length) (hns : NoScalarReshape w.g (base w.g a)) (hP : ∀ i, Reach w.g a i → P i) :
    RelE (Agree P) (materialize b w a) (materialize b v a) := by
  have hg : v.g = w.g := by rw [h.same]
  obtain ⟨f1, e1⟩ := materializeF_base (b := b) (w := w) hw ha (a + 1) (by omega)
  obtain ⟨f2, e2⟩ := materializeF_base (b := b) (w := v) (by rw [hg]; exact hw) (by rw [hg]; exact ha) (a + 1) (by omega)
  have hbl := Nat.lt_of_le_of_lt (base_le hw ha) ha
  have hbb := base_base hw ha
  have hrb := base_reach hw ha
  unfold materialize
  rw [e1, e2, hg]
  unfold materializeF
  rw [hg]
  split
  · exact h
  rename_i hnc
  simp only [hbb, Bool.false_eq_true, if_false]
  have hc : w.g.ctx (base w.g a) ≠ .const := fun e => hnc (by rw [e]; rfl)
  obtain ⟨funcs, t, e, hnd, ⟨p, hp⟩, hord, htg, hreach⟩ := convert_good hw hbl hns hbb hc
  obtain ⟨scheds, es, hl, hps⟩ := schedAll_ok (isGpu := b.isGpu) htg funcs (fun _ h => h)
  have hr := convert_refs hw hbl hns e
  have hfr : ∀ f ∈ funcs, Reach w.g (base w.g a) f := by
    obtain ⟨funcs', t', e', _, _, _, hent⟩ := convert_ok hw hbl hns hbb
    rw [e] at e'; cases e'; exact fun f hf => (hent f hf).1
  simp only [e, es, bind, Except.bind]
  have hlog : v.log = w.log := by rw [h.same]
  have hmap : (funcs.zip scheds).map (·.1) = funcs := by apply List.map_fst_zip; omega
  refine agree_runFuncs _ ⟨?_, h.cpu, h.dev, h.grad, h.ev⟩ (fun q hq => ?_)
  · rw [h.same]
  have hqf : q.1 ∈ funcs := by rw [← hmap]; exact List.mem_map_of_mem hq
  obtain ⟨_, _, F, hF, hE, hrefs⟩ := htg.entry q.1 hqf
  refine ⟨F, hF, hE.buffer, fun i hm => hP i ?_, fun d hd => ?_⟩
  · have h1 := hrb.trans (hfr q.1 hqf)
    rcases List.mem_cons.1 hm with rfl | hm
    · exact h1
    · rcases List.mem_append.1 hm with hm | hm
      · exact h1.trans (hr _ F hF i (mem_refs.2 (.inr (mem_dedup.1 hm))))
      · exact h1.trans (hr _ F hF i (mem_refs.2 (.inl (mem_dedup.1 hm))))
  · obtain ⟨_, _, D, hD, hED, _⟩ := htg.entry d (hrefs d (mem_dedup.1 hd)).1
    exact ⟨D, hD, hED.buffer⟩

theorem agree_tolist {b : Backend V} {w v : World V} (h : Agree P w v) {a : Nat} (ha : P (base w.g a)) :
    RelE (fun p q => p.1 = q.1 ∧ Agree P p.2 q.2) (tolist b w a) (tolist b v a) := by
  have hg : v.g = w.g := by rw [h.same]
  unfold tolist
  rw [hg]
  refine RelE.bind (Q := Agree P) ?_ fun w1 v1 h1 hw1 => ?_
  · unfold ensureCpu
    rw [h.cpuBuf ha]
    split
    · exact h
    · split
      · rw [h.dev _ ha]
        split
        · refine ⟨?_, upd_agree h.cpu _ _, h.dev, h.grad, unfreed_snoc h.ev _⟩
          rw [h.same]
        · rfl
      · rfl
  · have hg1 : v1.g = w1.g := by rw [h1.same]
    have e : w1.g = w.g := by
      unfold ensureCpu at hw1
      split at hw1
      · cases hw1; rfl
      · split at hw1
        · split at hw1 <;> cases hw1; rfl
        · cases hw1
    rw [hg1, e, h1.cpuBuf ha]
    split
    · exact RelE.bind (Q := Eq) (RelE.eq _) fun _ l e1 _ => ⟨e1 ▸ rfl, h1⟩
    · rfl

/-! #### gradients -/

theorem agree_accum {w v : World V} (h : Agree P w v) {p : Nat × Nat} (h1 : P p.1) : RelE (Agree P) (Bwd.accum w p) (Bwd.accum v p) := by
  have hg : v.g = w.g := by rw [h.same]
  unfold Bwd.accum
  rw [h.grad _ h1, hg]
  split
  · refine ⟨?_, h.cpu, h.dev, upd_agree h.grad _ _, h.ev⟩
    rw [h.same]
  · refine RelE.bind (Q := Eq) (RelE.eq _) fun _ q e1 _ => ?_
    subst e1
    refine ⟨?_, h.cpu, h.dev, upd_agree h.grad _ _, h.ev⟩
    rw [h.same]

theorem agree_accums (l : List (Nat × Nat)) : ∀ {w v : World V}, Agree P w v → (∀ p ∈ l, P p.1) → RelE (Agree P) (l.foldlM Bwd.accum w) (l.foldlM Bwd.accum v) := by
  induction l with
  | nil => intro w v h _; exact h
  | cons x l ih =>
    intro w v h hl
    rw [List.foldlM_cons, List.foldlM_cons]
    exact (agree_accum h (hl x (by simp))).bind fun w1 v1 h1 _ => ih h1 (fun i hi => hl i (by simp [hi]))

theorem agree_visit {A : Scalar V} {w v : World V} (h : Agree P w v) {t : Nat} (ht : P t) (hin : ∀ x ∈ (w.g.ctx t).inputs, P x) : RelE (Agree P) (Bwd.visit A w t) (Bwd.visit A v t) := by
  have hg : v.g = w.g := by rw [h.same]
  unfold Bwd.visit
  rw [h.grad _ ht, hg]
  split
  · rfl
  · refine RelE.bind (Q := Eq) (RelE.eq _) fun _ q e1 _ => ?_
    subst e1
    refine agree_accums _ ⟨?_, h.cpu, h.dev, h.grad, h.ev⟩ (fun p hp => hin _ (List.of_mem_zip hp).1)
    rw [h.same]

theorem agree_visits {A : Scalar V} {w0 : World V} (l : List Nat) : ∀ {w v : World V}, Agree P w v → WCl P N w0 w → (∀ t ∈ l, t < w.g.length ∧ P t) →
    RelE (Agree P) (l.foldlM (Bwd.visit A) w) (l.foldlM (Bwd.visit A) v) := by
  induction l with
  | nil => intro w v h _ _; exact h
  | cons x l ih =>
    intro w v h hw hl
    rw [List.foldlM_cons, List.foldlM_cons]
    obtain ⟨hx1, hx2⟩ := hl x (by simp)
    refine (agree_visit h hx2 (hw.inp x hx1 hx2)).bind fun w1 v1 h1 e1 => ?_
    obtain ⟨hw1, hlen⟩ := cl_visit hw hx1 hx2 w1 e1
    exact ih h1 hw1 (fun i hi => ⟨Nat.lt_of_lt_of_le (hl i (by simp [hi])).1 hlen, (hl i (by simp [hi])).2⟩)

theorem agree_backward {A : Scalar V} {w0 w v : World V} (h : Agree P w v) (hw : WF w.g) (hn : NN w.g) (hs : GradShapes w) (hc : WCl P N w0 w) {y : Nat} (hyl : y < w.g.length) (hy : P y) :
    RelE (Agree P) (Bwd.backward A w y) (Bwd.backward A v y) := by
  have hg : v.g = w.g := by rw [h.same]
  obtain ⟨b0, _⟩ := seed_ok A hw hn hs hyl
  have h1 : WCl P N w0 (Bwd.seed A w y) := by
    unfold Bwd.seed
    split
    · exact hc
    · have h1 : PA P N (ND.onesLike A w.g y) := cl_const hc.toCl
      exact hc.setGrad hy h1.1 h1.2
  have ha : Agree P (Bwd.seed A w y) (Bwd.seed A v y) := by
    unfold Bwd.seed
    rw [h.grad _ hy, hg]
    split
    · exact h
    · refine ⟨?_, h.cpu, h.dev, upd_agree h.grad _ _, h.ev⟩
      rw [h.same]
  have hyl1 : y < (Bwd.seed A w y).g.length := Nat.lt_of_lt_of_le hyl b0.ext.length
  obtain ⟨seen, ord, e, _, _, hmem, _⟩ := dfs_root b0.wf hyl1
  have hg1 : (Bwd.seed A v y).g = (Bwd.seed A w y).g := by rw [ha.same]
  unfold Bwd.backward
  simp only [hg1, e]
  refine agree_visits _ ha h1 (fun t ht => ?_)
  have hr := ((hmem t).1 (List.mem_reverse.1 ht)).1
  exact ⟨Nat.lt_of_le_of_lt (hr.le b0.wf hyl1) hyl1, h1.toCl.reach b0.wf hyl1 hy hr⟩

theorem agree_seed {A : Scalar V} {w v : World V} (h : Agree P w v) {y : Nat} (hy : P y) : Agree P (Bwd.seed A w y) (Bwd.seed A v y) := by
  have hg : v.g = w.g := by rw [h.same]
  unfold Bwd.seed
  rw [h.grad _ hy, hg]
  split
  · exact h
  · refine ⟨?_, h.cpu, h.dev, upd_agree h.grad _ _, h.ev⟩
    rw [h.same]

theorem RelE.ok {α β : Type} {Q : α → β → Prop} {a : α} {y : Except Err β} (h : RelE Q (.ok a) y) : ∃ b, y = .ok b ∧ Q a b := by
  cases y with
  | error e => simp [RelE] at h
  | ok b => exact ⟨b, rfl, h⟩

theorem Agree.graph {w v : World V} (h : Agree P w v) : v.g = w.g := by rw [h.same]

theorem Agree.setG {w v : World V} (h : Agree P w v) (g : Graph V) : Agree P { w with g := g } { v with g := g } :=
  ⟨by rw [h.same], h.cpu, h.dev, h.grad, h.ev⟩

/-- `backward` left in the middle. -/
theorem agree_stopped {A : Scalar V} {w0 w w' v : World V} (h : Agree P w v) (hw : WF w.g) (hn : NN w.g) (hs : GradShapes w) (hc : WCl P N w0 w) {y : Nat} (hyl : y < w.g.length) (hy : P y)
    (hst : Bwd.Stopped A w y w') : ∃ v', Bwd.Stopped A v y v' ∧ Agree P w' v' := by
  have ha := agree_seed (A := A) h hy
  have h1 := cl_seed (A := A) hc hy
  cases hst with
  | start => exact ⟨v, .start, h⟩
  | seeding e1 e2 => exact ⟨_, .seeding (by rw [h.graph]; exact e1) (by rw [ha.graph]; exact e2), h.setG _⟩
  | seeded => exact ⟨_, .seeded, ha⟩
  | @rule seen funcs pre post gxs t gr w1 g g' hd hsp hf hgr hru e1 e2 =>
    have hord := cl_order hw hn hs hc hyl hy hd
    have hpre : ∀ t ∈ pre, t < (Bwd.seed A w y).g.length ∧ P t := fun t ht => hord t (by rw [hsp]; simp [ht])
    have rel := agree_visits (A := A) pre ha h1 hpre
    rw [hf] at rel
    obtain ⟨v1, ev1, a1⟩ := rel.ok
    have t2 := (hord t (by rw [hsp]; simp)).2
    exact ⟨_, .rule (by rw [ha.graph]; exact hd) hsp ev1 (by rw [a1.grad t t2]; exact hgr) (by rw [a1.graph]; exact hru) (by rw [a1.graph]; exact e1) e2, a1.setG _⟩
  | @adding seen funcs pre post gxs t gr w1 w2 w3 g g' done rest p hd hsp hf hgr hru hz hdone hp e1 e2 =>
    have hord := cl_order hw hn hs hc hyl hy hd
    have hpre : ∀ t ∈ pre, t < (Bwd.seed A w y).g.length ∧ P t := fun t ht => hord t (by rw [hsp]; simp [ht])
    have rel := agree_visits (A := A) pre ha h1 hpre
    rw [hf] at rel
    obtain ⟨v1, ev1, a1⟩ := rel.ok
    obtain ⟨t1, t2⟩ := hord t (by rw [hsp]; simp)
    obtain ⟨k1, l1⟩ := cl_visits h1 hpre hf
    have hin := k1.inp t (Nat.lt_of_lt_of_le t1 l1) t2
    have hpair : ∀ q ∈ done ++ p :: rest, P q.1 := fun q hq => hin _ (List.of_mem_zip (hz ▸ hq)).1
    have rel2 := agree_accums done (a1.setG g) (fun q hq => hpair q (List.mem_append_left _ hq))
    rw [hdone] at rel2
    obtain ⟨v2, ev2, a2⟩ := rel2.ok
    have rel3 := agree_accum a2 (p := p) (hpair p (by simp))
    rw [hp] at rel3
    obtain ⟨v3, ev3, a3⟩ := rel3.ok
    exact ⟨_, .adding (by rw [ha.graph]; exact hd) hsp ev1 (by rw [a1.grad t t2]; exact hgr) (by rw [a1.graph]; exact hru) (by rw [a1.graph]; exact hz) ev2 ev3 (by rw [a2.graph]; exact e1)
      (by rw [a3.graph]; exact e2), a2.setG _⟩

/-! #### API calls -/

/-- Two outcomes of a call: the same result, and worlds that agree. -/
abbrev AgreeO (P : Nat → Prop) : Out V × World V → Out V × World V → Prop := fun p q => p.1 = q.1 ∧ Agree P p.2 q.2

theorem agree_made {w v : World V} (h : Agree P w v) (q : Nat × Graph V) : RelE (AgreeO P) (made w q) (made v q) := by
  refine ⟨rfl, ?_, h.cpu, h.dev, h.grad, h.ev⟩
  rw [h.same]

theorem agree_madeE {w v : World V} (h : Agree P w v) (q : Except Err (Nat × Graph V)) : RelE (AgreeO P) (madeE w q) (madeE v q) :=
  RelE.bind (Q := Eq) (RelE.eq q) fun _ q e _ => e ▸ agree_made h _

/-- A call on arrays in `P` does the same in worlds that agree on `P`. -/
theorem agree_step {b : Backend V} {w0 w v : World V} (hi : Inv b w) (h : Agree P w v) (hc : WCl P N w0 w) {c : Call V} (hP : ∀ a ∈ c.arrays, P a)
    (hok : ∀ a, c = .materialize a → NoScalarReshape w.g (base w.g a)) : RelE (AgreeO P) (step b w c) (step b v c) := by
  have hg : v.g = w.g := by rw [h.same]
  have hcl := hc.toCl
  unfold step
  rw [hg]
  split
  case isFalse => rfl
  rename_i hin
  cases c <;> simp only [Call.arrays, List.mem_cons, List.not_mem_nil, or_false, forall_eq, forall_eq_or_imp] at hP hin <;> simp only [exec1, hg]
  case array => exact agree_madeE h _
  case arange => exact agree_madeE h _
  case full => exact agree_made h _
  case fullLike => exact agree_made h _
  case onesLike => exact agree_made h _
  case zerosLike => exact agree_made h _
  case un => exact agree_made h _
  case bin => exact agree_madeE h _
  case binScalar => exact agree_madeE h _
  case sum => exact agree_madeE h _
  case getitem => exact agree_madeE h _
  case broadcastTo => exact agree_made h _
  case reshape => exact agree_madeE h _
  case T => exact agree_madeE h _
  case transpose => exact agree_madeE h _
  case contiguous => exact agree_made h _
  case pad => exact agree_madeE h _
  case dilate => exact agree_madeE h _
  case materialize a =>
    exact (agree_materialize h hi.winv.wf hin (hok a rfl) (fun i hr => hcl.reach hi.winv.wf hin hP hr)).bind fun w1 v1 h1 _ => ⟨rfl, h1⟩
  case tolist a =>
    exact (agree_tolist h (hcl.reach hi.winv.wf hin hP (base_reach hi.winv.wf hin))).bind fun p q h1 _ => ⟨congrArg Out.list h1.1, h1.2⟩
  case backward a =>
    exact (agree_backward h hi.winv.wf hi.nn hi.gs hc hin hP).bind fun w1 v1 h1 _ => ⟨rfl, h1⟩
  case grad a =>
    rw [h.grad _ hP]
    exact ⟨rfl, h⟩
  case clearGrad a =>
    refine ⟨rfl, ?_, h.cpu, h.dev, fun i hi => ?_, h.ev⟩
    · rw [h.same]
    · simp only; rw [h.grad i hi]
  case setGrad a k =>
    refine ⟨rfl, ?_, h.cpu, h.dev, fun i hi => ?_, h.ev⟩
    · rw [h.same]
    · simp only; rw [h.grad i hi]
  case reset =>
    refine ⟨rfl, ?_, h.cpu, h.dev, h.grad, h.ev⟩
    rw [h.same]

/-! #### histories -/

theorem Agree.mono {Q : Nat → Prop} {w v : World V} (h : Agree P w v) (hs : ∀ i, Q i → P i) : Agree Q w v :=
  ⟨h.same, fun i hi => h.cpu i (hs i hi), fun i hi => h.dev i (hs i hi), fun i hi => h.grad i (hs i hi), h.ev⟩

theorem Agree.wcl {w v : World V} (h : Agree P w v) (hc : WCl P N w w) : WCl P N v v :=
  ⟨by rw [h.same]; exact hc.toCl, fun i k hi hk => hc.grd i k hi (by rw [← h.grad i hi]; exact hk), fun _ _ => ⟨rfl, rfl, rfl⟩⟩

theorem ArgsOK.agree {b : Backend V} {w v : World V} (h : Agree P w v) {c : Call V} (hok : ArgsOK b w c) : ArgsOK b v c := by
  rw [h.same]; cases c <;> exact hok

theorem unfreed_free (e : List DevEvent) (i : Nat) : unfreed (e ++ [.free i]) = unfreed e := by simp [unfreed]

theorem RunsG.sim {b : Backend V} (hb : Faithful b) {w w' v : World V} {R G R' G' : List Nat} (h : InvC b w R G) (hv : Inv b v) (ha : Agree (· ∉ G) w v)
    (hr : RunsG b w R G w' R' G') : ∃ v', Runs b v v' ∧ Agree (· ∉ G') w' v' := by
  induction hr with
  | refl => exact ⟨v, .refl, ha⟩
  | @call w1 w' R1 G1 c o hr1 hc hok hs ih =>
    obtain ⟨v1, hv1, ha1⟩ := ih
    obtain ⟨i1, l1, _⟩ := hr1.inv hb h
    have iv := (hv1.later hb hv).1
    have hsub : ∀ i, Live w1 R1 i ∨ w1.g.length ≤ i → i ∉ G1 := fun i hi hG => hi.elim (i1.dead i hG).2 (by have := (i1.dead i hG).1; omega)
    have haP := ha1.mono hsub
    have hcl := live_wcl i1.inv R1
    have hP : ∀ a ∈ c.arrays, Live w1 R1 a ∨ w1.g.length ≤ a := fun a ha => .inl (.root (hc a ha))
    have rel := agree_step i1.inv haP hcl hP (fun a e => by subst e; exact hok.1)
    rw [hs] at rel
    cases hsv : step b v1 c with
    | error e => rw [hsv] at rel; exact absurd rel (by simp [RelE])
    | ok p =>
      obtain ⟨o', v'⟩ := p
      rw [hsv] at rel
      obtain ⟨_, ha'⟩ := rel
      have hokv := hok.agree haP
      have f1 := (cl_step hb i1.inv hcl hP hok _ hs).2.out
      have f2 := (cl_step hb iv (haP.wcl hcl) hP hokv _ hsv).2.out
      refine ⟨v', .call (c := c) hv1 (.inr hokv) (by unfold next; rw [hsv]), ha'.same, fun i hi => ?_, fun i hi => ?_, fun i hi => ?_, ha'.ev⟩
      all_goals by_cases hp : Live w1 R1 i ∨ w1.g.length ≤ i
      · exact ha'.cpu i hp
      · rw [(f1 i hp).1, (f2 i hp).1]; exact ha1.cpu i hi
      · exact ha'.dev i hp
      · rw [(f1 i hp).2.1, (f2 i hp).2.1]; exact ha1.dev i hi
      · exact ha'.grad i hp
      · rw [(f1 i hp).2.2, (f2 i hp).2.2]; exact ha1.grad i hi
  | raise _ _ _ _ ih => exact ih
  | @stopped w1 w' R1 G1 y hr1 hy hok hs ih =>
    obtain ⟨v1, hv1, ha1⟩ := ih
    obtain ⟨i1, l1, _⟩ := hr1.inv hb h
    have iv := (hv1.later hb hv).1
    have hyl := i1.held y hy
    have hsub : ∀ i, Live w1 R1 i ∨ w1.g.length ≤ i → i ∉ G1 := fun i hi hG => hi.elim (i1.dead i hG).2 (by have := (i1.dead i hG).1; omega)
    have haP := ha1.mono hsub
    have hcl := live_wcl i1.inv R1
    obtain ⟨v', hsv, ha'⟩ := agree_stopped haP i1.inv.winv.wf i1.inv.nn i1.inv.gs hcl hyl (.inl (.root hy)) hs
    have hyv : y < v1.g.length := by rw [ha1.graph]; exact hyl
    have f1 := (cl_stopped i1.inv.winv.wf i1.inv.nn i1.inv.gs hcl hyl (.inl (.root hy)) hs).out
    have f2 := (cl_stopped iv.winv.wf iv.nn iv.gs (haP.wcl hcl) hyv (.inl (.root hy)) hsv).out
    refine ⟨v', .stopped hv1 hyv (hok.agree haP) hsv, ha'.same, fun i hi => ?_, fun i hi => ?_, fun i hi => ?_, ha'.ev⟩
    all_goals by_cases hp : Live w1 R1 i ∨ w1.g.length ≤ i
    · exact ha'.cpu i hp
    · rw [(f1 i hp).1, (f2 i hp).1]; exact ha1.cpu i hi
    · exact ha'.dev i hp
    · rw [(f1 i hp).2.1, (f2 i hp).2.1]; exact ha1.dev i hi
    · exact ha'.grad i hp
    · rw [(f1 i hp).2.2, (f2 i hp).2.2]; exact ha1.grad i hi
  | drop _ _ ih => exact ih
  | @collect w1 R1 G1 j _ _ _ _ ih =>
    obtain ⟨v1, hv1, ha1⟩ := ih
    have hne : ∀ i, i ∉ j :: G1 → i ≠ j ∧ i ∉ G1 := fun i hi => ⟨fun e => hi (by simp [e]), fun e => hi (by simp [e])⟩
    refine ⟨v1, hv1, by rw [ha1.same]; rfl, fun i hi => ?_, fun i hi => ?_, fun i hi => ?_, ?_⟩
    · simp only [World.collect, if_neg (hne i hi).1]; exact ha1.cpu i (hne i hi).2
    · simp only [World.collect, if_neg (hne i hi).1]; exact ha1.dev i (hne i hi).2
    · simp only [World.collect, if_neg (hne i hi).1]; exact ha1.grad i (hne i hi).2
    · simp only [World.collect]; split
      · rw [unfreed_free]; exact ha1.ev
      · exact ha1.ev

/-! #### without collections nothing is freed -/

/-- No device memory was freed so far. -/
abbrev NoFree (w : World V) : Prop := unfreed w.ev = w.ev

theorem noFree_snoc {ev : List DevEvent} {e : DevEvent} (h : unfreed ev = ev) (he : ∀ i, e ≠ .free i) : unfreed (ev ++ [e]) = ev ++ [e] := by
  unfold unfreed at *
  rw [List.filter_append, h]
  cases e <;> first | rfl | exact absurd rfl (he _)

theorem noFree_invoke {b : Backend V} {w : World V} (h : NoFree w) {sch : Schedule} {K : Kernel} {out : Nat} {ins : List Nat} : Post NoFree (invoke b w sch K out ins) := by
  unfold invoke
  by_cases h1 : out ∈ ins
  · simp only [h1, if_true]; exact Post.error
  by_cases h2 : K.params.length ≠ (out :: ins).length
  · simp only [h1, if_false, if_pos h2]; exact Post.error
  simp only [h1, if_false, if_neg h2]
  by_cases hg : b.isGpu = true
  · simp only [hg, if_true]
    refine Post.bind (Q := NoFree) (Post.foldlM (fun w hw p _ => ?_) h) fun w1 hw1 => ?_
    · unfold toDev
      refine Post.bind (Q := NoFree) ?_ fun w1 hw1 => Post.pure ?_
      · unfold alloc
        split
        · exact Post.pure hw
        · split
          · exact Post.error
          · exact Post.pure (noFree_snoc hw (by simp))
      · unfold htod
        split
        · split
          · exact noFree_snoc hw1 (by simp)
          · exact hw1
        · exact hw1
    · split
      · split
        · exact Post.pure (noFree_snoc hw1 (by simp))
        · exact Post.error
      · exact Post.error
  · have hf : ∀ (l : List Nat) (w : World V), NoFree w → NoFree (l.foldl (fillCpu b.A) w) := by
      intro l
      induction l with
      | nil => intro w h; exact h
      | cons x l ih =>
        intro w h
        refine ih _ ?_
        unfold fillCpu
        split
        · exact h
        · exact h
    have hv := hf (out :: ins) w h
    generalize (out :: ins).foldl (fillCpu b.A) w = w1 at hv
    simp only [hg, Bool.false_eq_true, if_false]
    split
    · split
      · exact Post.pure hv
      · exact Post.error
    · exact Post.error

theorem noFree_runFunc {b : Backend V} {t : Tbl} {fuel : Nat} {p : Nat × Schedule} {w : World V} (h : NoFree w) : Post NoFree (runFunc b t fuel w p) := by
  unfold runFunc
  split
  · exact Post.error
  · refine Post.bind (Q := fun _ => True) (fun _ _ => trivial) fun outs _ => Post.bind (Q := fun _ => True) (fun _ _ => trivial) fun key _ => ?_
    split
    · apply noFree_invoke; exact h
    · refine Post.bind (Q := fun _ => True) (fun _ _ => trivial) fun kn _ => ?_
      refine Post.bind (Q := NoFree) ?_ fun w1 hw1 => Post.pure hw1
      apply noFree_invoke; exact h

theorem noFree_materialize {b : Backend V} : ∀ (fuel : Nat) {w : World V} {a : Nat}, NoFree w → Post NoFree (materializeF b fuel w a) := by
  intro fuel
  induction fuel with
  | zero => intro w a h; exact Post.error
  | succ fuel ih =>
    intro w a h
    unfold materializeF
    split
    · exact Post.pure h
    split
    · split
      · exact ih h
      · exact Post.error
    · refine Post.bind (Q := fun _ => True) (fun _ _ => trivial) fun ft _ => Post.bind (Q := fun _ => True) (fun _ _ => trivial) fun ss _ => ?_
      exact Post.foldlM (fun w hw p _ => noFree_runFunc hw) h

theorem noFree_step {b : Backend V} {w : World V} (h : NoFree w) {c : Call V} : Post (fun r => NoFree r.2) (step b w c) := by
  have hm : ∀ q, Post (fun r : Out V × World V => NoFree r.2) (made w q) := fun q => Post.pure h
  have hmE : ∀ q, Post (fun r : Out V × World V => NoFree r.2) (madeE w q) := fun q => Post.bind (Q := fun _ => True) (fun _ _ => trivial) fun q _ => hm q
  have hacc : ∀ (p : Nat × Nat) (w : World V), NoFree w → Post NoFree (Bwd.accum w p) := by
    intro p w h
    unfold Bwd.accum
    split
    · exact Post.pure h
    · exact Post.bind (Q := fun _ => True) (fun _ _ => trivial) fun _ _ => Post.pure h
  unfold step
  split
  case isFalse => exact Post.error
  rename_i hin
  clear hin
  cases c <;> simp only [exec1] <;> try first | exact hm _ | exact hmE _ | exact Post.pure h
  case materialize a => exact (noFree_materialize (a + 1) h).bind fun w1 hw1 => Post.pure hw1
  case tolist a =>
    refine Post.bind (Q := fun q : Nested V × World V => NoFree q.2) ?_ fun q hq => Post.pure hq
    unfold tolist
    refine Post.bind (Q := NoFree) ?_ fun w1 hw1 => ?_
    · unfold ensureCpu
      split
      · exact Post.pure h
      · split
        · split
          · exact Post.pure (noFree_snoc h (by simp))
          · exact Post.error
        · exact Post.error
    · split
      · exact Post.bind (Q := fun _ => True) (fun _ _ => trivial) fun _ _ => Post.pure hw1
      · exact Post.error
  case backward a =>
    refine Post.bind (Q := NoFree) ?_ fun w1 hw1 => Post.pure hw1
    unfold Bwd.backward
    have hs : NoFree (Bwd.seed b.A w a) := by
      unfold Bwd.seed
      split
      · exact h
      · exact h
    refine Post.bind (Q := fun _ => True) (fun _ _ => trivial) fun q _ => Post.foldlM (fun w hw t _ => ?_) hs
    unfold Bwd.visit
    split
    · exact Post.error
    · exact Post.bind (Q := fun _ => True) (fun _ _ => trivial) fun q _ => Post.foldlM (fun w hw p _ => hacc p w hw) hw

theorem Reachable.no_free {b : Backend V} (hb : Faithful b) {w : World V} (h : Reachable b w) : unfreed w.ev = w.ev := by
  induction h with
  | init => rfl
  | @call w w' c _ _ hn ih =>
    unfold next at hn
    cases hs : step b w c with
    | ok p => rw [hs] at hn; cases hn; exact noFree_step ih _ hs
    | error e =>
      rw [hs] at hn
      simp only at hn
      split at hn
      · cases hn; exact ih
      · cases hn
  | @stopped w w' y h hy ha hs ih =>
    have hi := h.inv hb
    rw [(hs.bstep b.A hi.winv.wf hi.nn hi.gs hy ha).1.rest]
    exact ih

/-! #### reading back -/

theorem computesG_strided {b : Backend V} (hb : Faithful b) {w : World V} {R G : List Nat} (h : InvC b w R G) {a : Nat} (ha : a ∈ R) : ComputesG b w R G a (strided b w a) := by
  intro w1 R1 G1 hr haR hargs
  obtain ⟨h1, hl, _⟩ := hr.inv hb h
  have hwf := h1.inv.winv.wf
  have ha0 := h.held a ha
  have ha1 := h1.held a haR
  have hbl := Nat.lt_of_le_of_lt (base_le hwf ha1) ha1
  obtain ⟨w2, e2, r2⟩ := materialize_step hb h1.inv ha1 hargs
  have es : step b w1 (.materialize a) = .ok (.unit, w2) := by
    rw [step_eq (by simpa [Call.arrays] using ha1)]
    simp only [exec1, e2]; rfl
  refine ⟨w2, es, fun w3 R3 G3 hr3 ha3R => ?_⟩
  have hr2 : RunsG b w1 R1 G1 w2 R1 G1 := .call .refl (fun x hx => by simp [Call.arrays] at hx; rw [hx]; exact haR) hargs es
  obtain ⟨h2, hl2, _⟩ := hr2.inv hb h1
  obtain ⟨h3, hl3, _⟩ := hr3.inv hb h2
  have hx := hl.ext.trans (hl2.ext.trans hl3.ext)
  have ha3 := h3.held a ha3R
  have hbe : base w3.g a = base w1.g a := by rw [base_ext hl3.ext h2.inv.winv.wf (by rw [r2.g]; exact ha1), r2.g]
  have hlive : Live w3 R3 (base w3.g a) := by
    have : ∀ j, Reach w3.g a j → Live w3 R3 j := by
      intro j hj
      induction hj with
      | refl => exact .root ha3R
      | step _ hx ih => exact .input ih hx
    exact this _ (base_reach h3.inv.winv.wf ha3)
  have hnG : base w1.g a ∉ G3 := fun hG => by rw [← hbe] at hG; exact (h3.dead _ hG).2 hlive
  have hav : Avail b w3 (base w3.g a) := by
    rw [hbe]
    rcases r2.avail with h | ⟨hg, h⟩
    · exact .inl (cpuBuf_mono (hl3.ext.nd (by rw [r2.g]; exact hbl)) (hl3.cpuMono _ hnG) h)
    · exact .inr ⟨hg, hl3.devMono _ hnG h⟩
  obtain ⟨w4, e⟩ := tolist_strided h3.inv.winv ha3 hav
  refine ⟨w4, ?_⟩
  rw [step_eq (by simpa [Call.arrays] using ha3)]
  simp only [exec1, e]
  rw [strided_ext hx h.inv.winv.wf h3.inv.winv.wf ha0]; rfl

theorem strided_equiv {b : Backend V} {w : World V} (h : WInv b w) {a : Nat} (ha : a < w.g.length) (hno : NoOffsetReshape w.g a) : (strided b w a).Equiv (value b w a) := by
  refine ⟨(den_shape b.A h.wf ha).symm, fun i hv => ?_⟩
  obtain ⟨j, hj, he, hd⟩ := layout b.A h.wf ha hv
  have hbl : base w.g a < w.g.length := Nat.lt_of_le_of_lt (base_le h.wf ha) ha
  have hf := flatten_getElem? (t := den b.A w.g (base w.g a)) (idx := j) (by rw [den_shape b.A h.wf hbl]; exact hj)
  unfold addr at he
  show (value b w (base w.g a)).flatten.getD (position w a i).toNat _ = _
  unfold position value
  rw [he, hd hno, List.getD_eq_getElem?_getD, ← den_shape b.A h.wf hbl, hf]; rfl

theorem computesG_value {b : Backend V} (hb : Faithful b) {w : World V} {R G : List Nat} (h : InvC b w R G) {a : Nat} (ha : a ∈ R) (hno : NoOffsetReshape w.g a) :
    ComputesG b w R G a (value b w a) := by
  have := computesG_strided hb h ha
  unfold ComputesG at this ⊢
  rw [← (strided_equiv h.inv.winv (h.held a ha) hno).toNested]; exact this

end Whale
