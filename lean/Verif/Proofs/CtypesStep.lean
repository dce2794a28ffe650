import Verif.Proofs.CtypesRun
import Verif.Proofs.RelatedC
/-
For C70: all other calls of a session with conversions.
-/
namespace Whale
open Mat Hist Kern
variable {H V : Type} {C : Marshal H V} {f : H → V} {R : Runtime V} {dt : DType}

/-- Only the arrays and the gradients differ. -/
structure Touch (w w' : World V) : Prop where
  cpu : w'.cpu = w.cpu
  dev : w'.dev = w.dev
  cache : w'.cache = w.cache
  tmp : w'.tmp = w.tmp
  tick : w'.tick = w.tick
  log : w'.log = w.log
  epoch : w'.epoch = w.epoch

theorem Touch.refl (w : World V) : Touch w w := ⟨rfl, rfl, rfl, rfl, rfl, rfl, rfl⟩
theorem Touch.trans {w w' w'' : World V} (h : Touch w w') (k : Touch w' w'') : Touch w w'' :=
  ⟨k.cpu.trans h.cpu, k.dev.trans h.dev, k.cache.trans h.cache, k.tmp.trans h.tmp, k.tick.trans h.tick, k.log.trans h.log, k.epoch.trans h.epoch⟩
theorem Touch.graph {w w' : World V} (h : Touch w w') (g : Graph V) : Touch w { w' with g := g } := ⟨h.cpu, h.dev, h.cache, h.tmp, h.tick, h.log, h.epoch⟩

theorem accum_touch {w w' : World V} {p : Nat × Nat} (h : Bwd.accum w p = .ok w') : Touch w w' := by
  unfold Bwd.accum at h
  split at h
  · cases h; exact ⟨rfl, rfl, rfl, rfl, rfl, rfl, rfl⟩
  · obtain ⟨q, _, h⟩ := except_bind_ok h
    cases h; exact ⟨rfl, rfl, rfl, rfl, rfl, rfl, rfl⟩

theorem foldlM_touch {α : Type} {k : World V → α → Except Err (World V)} (hf : ∀ {w w' x}, k w x = .ok w' → Touch w w') :
    ∀ (l : List α) {w w' : World V}, l.foldlM k w = .ok w' → Touch w w' := by
  intro l
  induction l with
  | nil => intro w w' h; cases h; exact .refl _
  | cons x l ih =>
    intro w w' h
    rw [List.foldlM_cons] at h
    obtain ⟨w1, h1, h2⟩ := except_bind_ok h
    exact (hf h1).trans (ih h2)

theorem visit_touch {A : Scalar V} {w w' : World V} {t : Nat} (h : Bwd.visit A w t = .ok w') : Touch w w' := by
  unfold Bwd.visit at h
  split at h
  · cases h
  · obtain ⟨q, _, h⟩ := except_bind_ok h
    have := foldlM_touch accum_touch _ h
    exact ⟨this.cpu, this.dev, this.cache, this.tmp, this.tick, this.log, this.epoch⟩

theorem seed_touch (A : Scalar V) (w : World V) (y : Nat) : Touch w (Bwd.seed A w y) := by
  unfold Bwd.seed
  split <;> exact ⟨rfl, rfl, rfl, rfl, rfl, rfl, rfl⟩

theorem backward_touch {A : Scalar V} {w w' : World V} {y : Nat} (h : Bwd.backward A w y = .ok w') : Touch w w' := by
  unfold Bwd.backward at h
  obtain ⟨q, _, h⟩ := except_bind_ok h
  exact (seed_touch A w y).trans (foldlM_touch visit_touch _ h)

theorem lazy_touch {b : Backend V} {w w' : World V} {c : Call V} {o : Out V} (hl : lazyCall c = true) (hr : c ≠ .reset) (h : exec1 b w c = .ok (o, w')) : Touch w w' := by
  have made : ∀ p, made w p = .ok (o, w') → Touch w w' := by intro p h; cases h; exact ⟨rfl, rfl, rfl, rfl, rfl, rfl, rfl⟩
  have madeE : ∀ p, madeE w p = .ok (o, w') → Touch w w' := by
    intro p h
    cases p with
    | error e => cases h
    | ok p => exact made p h
  cases c <;> first | exact madeE _ h | exact made _ h | (cases h; exact ⟨rfl, rfl, rfl, rfl, rfl, rfl, rfl⟩) | skip
  case materialize a => cases hl
  case tolist a => cases hl
  case reset => exact absurd rfl hr
  case backward a =>
    simp only [exec1] at h
    cases hb : Bwd.backward b.A w a with
    | error e => rw [hb] at h; cases h
    | ok q => rw [hb] at h; cases h; exact backward_touch hb

theorem CMatches.touch {s : CWorld H V} {w : World V} (hm : CMatches R f s w) {v : World H} {w' : World V} (hv : Touch s.w v) (hw : Touch w w') (hr : WRel (FRel f) v w') : CMatches R f { s with w := v } w' := by
  refine ⟨?_, by show List.Forall₂ _ s.texts w'.cache; rw [hw.cache]; exact hm.texts⟩
  have hs := hm.same
  unfold Cty.lower at hs ⊢
  injection hs with a1 a2 a3 a4 a5 a6 a7 a8 a9 a10 a11 a12
  have e1 := gRel_map.1 hr.g
  simp only [hv.cpu, hv.tmp, hv.tick, hv.log, hv.epoch, hr.grad, ← e1, a2, a3, a8, a9, a10, a12]
  obtain ⟨b1, b2, b3, b4, b5, b6, b7⟩ := hw
  cases w'; cases w
  simp only at b1 b2 b3 b4 b5 b6 b7
  simp only [b1, b2, b4, b5, b6, b7]

theorem CMatches.wrel {s : CWorld H V} {w : World V} (hm : CMatches R f s w) : WRel (FRel f) s.w w := ⟨lower_g hm.same, congrArg World.grad hm.same⟩

/-! ### lazy calls -/

/-- The call on pairs of a Python number and its C number. -/
abbrev numPair (f : H → V) (h : H) : H × V := (h, f h)

theorem call_fst (c : Call H) : (c.map (numPair f)).map Prod.fst = c := by
  have hn : ∀ l : Nested H, (l.map (numPair f)).map Prod.fst = l := fun l => by rw [Whale.map_map]; exact Whale.map_id l
  cases c <;> first | rfl | simp only [Call.map, hn]

theorem call_snd (c : Call H) : (c.map (numPair f)).map Prod.snd = c.map f := by
  cases c <;> first | rfl | simp only [Call.map, Whale.map_map]

theorem call_same (hC : C.Suits f R dt) {c : Call H} (ha : ∀ n, c = .arange n → ∀ i, 0 ≤ i → i < n → R.b.A.host i = f (C.A.host i)) : SameCall (FRel f) C.A R.b.A (c.map (numPair f)) := by
  constructor
  · intro p hp
    have hleaf : ∀ l : Nested H, p ∈ leaves (l.map (numPair f)) → SameNumber (FRel f) C.A R.b.A p.1 p.2 := by
      intro l hl
      rw [Whale.leaves_map] at hl
      obtain ⟨h, _, rfl⟩ := List.mem_map.1 hl
      exact ⟨rfl, hC.isInt h⟩
    cases c <;> simp only [Call.map, Call.numbers, List.not_mem_nil, List.mem_singleton] at hp <;> first | exact hleaf _ hp | (subst hp; exact ⟨rfl, hC.isInt _⟩) | cases hp
  · intro n hn i h0 h1
    have hc : c = .arange n := by
      cases c <;> simp only [Call.map] at hn <;> first | (cases hn; rfl) | cases hn
    have := ha n hc i h0 h1
    exact ⟨this, by rw [this]; exact hC.isInt _⟩

theorem lazyCall_map {W : Type} (k : H → W) (c : Call H) : lazyCall (c.map k) = lazyCall c := by cases c <;> rfl
theorem reset_map {W : Type} {k : H → W} {c : Call H} (h : c ≠ .reset) : c.map k ≠ .reset := by cases c <;> first | exact absurd rfl h | (intro h'; cases h')

/-- A call that makes no copies. -/
theorem lazy_sim (hC : C.Suits f R dt) {s : CWorld H V} {w : World V} (hm : CMatches R f s w) {c : Call H} (hl : lazyCall c = true) (hr : c ≠ .reset)
    (ha : ∀ n, c = .arange n → ∀ i, 0 ≤ i → i < n → R.b.A.host i = f (C.A.host i)) :
    (∃ e, step R.b w (c.map f) = .error e ∧ step (Cty.host R C) s.w c = .error e) ∨
    ∃ o v w', step R.b w (c.map f) = .ok (Out.map f o, w') ∧ step (Cty.host R C) s.w c = .ok (o, v) ∧ CMatches R f { s with w := v } w' := by
  have := step_rel (b1 := Cty.host R C) (b2 := R.b) hC.consts hm.wrel (c := c.map (numPair f)) (call_same hC ha) (by rw [lazyCall_map]; exact hl)
  rw [call_fst, call_snd] at this
  cases h1 : step (Cty.host R C) s.w c with
  | error e =>
    cases h2 : step R.b w (c.map f) with
    | error e' => rw [h1, h2] at this; cases this; exact .inl ⟨_, rfl, rfl⟩
    | ok q => rw [h1, h2] at this; exact this.elim
  | ok p =>
    cases h2 : step R.b w (c.map f) with
    | error e' => rw [h1, h2] at this; exact this.elim
    | ok q =>
      rw [h1, h2] at this
      obtain ⟨ho, hw⟩ := this
      have t1 : Touch s.w p.2 := by
        unfold step at h1
        split at h1
        · exact lazy_touch (o := p.1) hl hr h1
        · cases h1
      have t2 : Touch w q.2 := by
        unfold step at h2
        split at h2
        · exact lazy_touch (o := q.1) (by rw [lazyCall_map]; exact hl) (reset_map hr) h2
        · cases h2
      refine .inr ⟨p.1, p.2, q.2, ?_, rfl, hm.touch t1 t2 hw⟩
      obtain ⟨o1, w1⟩ := p
      obtain ⟨o2, w2⟩ := q
      simp only at ho ⊢
      cases o1 <;> cases o2 <;> simp only at ho <;> first | exact ho.elim | (subst ho; rfl) | rfl

/-! ### `tolist` -/

theorem toNdlist_map (d : List H) : ∀ (s st : List Int) (o : Int), ND.toNdlist (d.map f) s st o = (ND.toNdlist d s st o).map (Nested.map f)
  | [], st, o => by
    unfold ND.toNdlist
    rw [fetch_map]
    cases ND.fetch d o <;> rfl
  | n :: s, st, o => by
    unfold ND.toNdlist
    cases st with
    | nil =>
      simp only
      split
      · rfl
      · rfl
    | cons x st =>
      simp only
      have : ∀ l : List Int, (l.mapM fun i => ND.toNdlist (d.map f) s st (o + i * x)) = (l.mapM fun i => ND.toNdlist d s st (o + i * x)).map (List.map (Nested.map f)) := by
        intro l
        induction l with
        | nil => rfl
        | cons i l ih =>
          rw [List.mapM_cons, List.mapM_cons, ih, toNdlist_map d s st _]
          cases ND.toNdlist d s st (o + i * x) with
          | error e => rfl
          | ok v =>
            cases l.mapM fun i => ND.toNdlist d s st (o + i * x) with
            | error e => rfl
            | ok vs => rfl
      rw [this]
      cases (irange n).mapM fun i => ND.toNdlist d s st (o + i * x) with
      | error e => rfl
      | ok l => show Except.ok _ = Except.ok _; rw [Nested.map, mapL_eq]

theorem tolist_sim (hC : C.Suits f R dt) {s : CWorld H V} {w : World V} (h : WInv R.b w) (hm : CMatches R f s w) {a : Nat} (hx : base w.g a < w.g.length)
    (hel : cpuBuf w (base w.g a) = none → ∀ v ∈ (den R.b.A w.g (base w.g a)).flatten, Sem.Elem R.L R.N dt v) :
    (∃ e, tolist R.b w a = .error e ∧ Cty.tolist R C s a = .error (.err e)) ∨
    ∃ l s' w', tolist R.b w a = .ok (l.map f, w') ∧ Cty.tolist R C s a = .ok (l, s') ∧ CMatches R f s' w' := by
  have hsw : Cty.lower f s = w.plain := hm.same
  have hg := lower_g hsw
  have hbase : base s.w.g a = base w.g a := base_rel hg a
  have fin : ∀ {s1 : CWorld H V} {w1 : World V}, CMatches R f s1 w1 → 
      let k := (match cpuBuf w1 (base w1.g a) with
        | some data => do
          let l ← ND.toNdlist data (w1.g.shape a) (w1.g.strides a) (w1.g.offset a)
          pure (l, w1)
        | none => throw .attrError : Except Err (Nested V × World V))
      let k' := (match cpuBuf s1.w (base s1.w.g a) with
        | some data => do
          let l ← Src.lift (ND.toNdlist data (s1.w.g.shape a) (s1.w.g.strides a) (s1.w.g.offset a))
          pure (l, s1)
        | none => throw (.err .attrError) : Except SErr (Nested H × CWorld H V))
      (∃ e, k = .error e ∧ k' = .error (.err e)) ∨ ∃ l s' w', k = .ok (l.map f, w') ∧ k' = .ok (l, s') ∧ CMatches R f s' w' := by
    intro s1 w1 hm1
    have h1 : Cty.lower f s1 = w1.plain := hm1.same
    have hg1 := lower_g h1
    simp only
    rw [lower_cpuBuf h1, base_rel hg1 a, ← hg1.shape, ← hg1.strides, ← hg1.offset]
    cases cpuBuf s1.w (base w1.g a) with
    | none => exact .inl ⟨_, rfl, rfl⟩
    | some d =>
      simp only [Option.map_some]
      rw [toNdlist_map]
      cases ND.toNdlist d (s1.w.g.shape a) (s1.w.g.strides a) (s1.w.g.offset a) with
      | error e => exact .inl ⟨e, rfl, rfl⟩
      | ok l => exact .inr ⟨l, s1, w1, rfl, rfl, hm1⟩
  unfold tolist Cty.tolist
  rw [hbase]
  unfold ensureCpu Cty.ensureCpu
  have hc := lower_cpuBuf hsw (base w.g a)
  cases hs : cpuBuf s.w (base w.g a) with
  | some l =>
    rw [hs] at hc
    rw [hc]
    exact fin hm
  | none =>
    rw [hs] at hc
    rw [hc]
    simp only [Option.map_none]
    cases hgpu : R.b.isGpu with
    | false => exact .inl ⟨_, rfl, rfl⟩
    | true =>
      simp only [if_true]
      rw [lower_dev hsw]
      cases hd : w.dev (base w.g a) with
      | none => exact .inl ⟨_, rfl, rfl⟩
      | some l =>
        simp only
        refine fin ⟨?_, hm.texts⟩
        have hl : l = (den R.b.A w.g (base w.g a)).flatten := (h.dev _ _ hd).2
        have hel' : ∀ v ∈ l, Sem.Elem R.L R.N dt v := by rw [hl]; exact hel hc
        have hcpu : (fun j => Option.map (List.map f) (upd s.w.cpu (base w.g a) (l.map C.get) j)) = upd w.cpu (base w.g a) l := by
          funext j
          unfold upd
          split
          · simp only [Option.map_some, map_get hC hel']
          · exact congrFun (congrArg World.cpu hsw) j
        unfold Cty.lower World.plain at hsw
        unfold Cty.lower
        simp only [hcpu]
        injection hsw with a1 a2 a3 a4 a5 a6 a7 a8 a9 a10 a11 a12
        simp only [a1, a3, a4, a8, a9, a10, a12]

/-! ### `backward` left in the middle -/

theorem prefix_map {g : Graph H} {g' : Graph H} (h : g <+: g') : g.mapData f <+: g'.mapData f := by
  obtain ⟨t, rfl⟩ := h
  exact ⟨Graph.mapData f t, by unfold Graph.mapData; rw [List.map_append]⟩

theorem stopped_sim (hC : C.Suits f R dt) {s : CWorld H V} {w : World V} (hm : CMatches R f s w) {y : Nat} {v : World H} (h : Bwd.Stopped C.A s.w y v) :
    ∃ w', Bwd.Stopped R.b.A w y w' ∧ CMatches R f { s with w := v } w' := by
  have hr := hm.wrel
  have hsd := seed_rel hC.consts hr y
  have ok : ∀ {x : Except Err (World H)} {z : Except Err (World V)} {u : World H}, EWRel (FRel f) x z → x = .ok u → ∃ u', z = .ok u' ∧ WRel (FRel f) u u' := by
    intro x z u h1 h2
    subst h2
    cases z with
    | error e => exact h1.elim
    | ok u' => exact ⟨u', rfl, h1⟩
  have mp : ∀ {u : World H} {u' : World V}, WRel (FRel f) u u' → ∀ {g' : Graph H}, (u.g <+: g' → u'.g <+: g'.mapData f) ∧ (g' <+: u.g → g'.mapData f <+: u'.g) := by
    intro u u' hu g'
    have := gRel_map.1 hu.g
    exact ⟨fun h => by rw [this]; exact prefix_map h, fun h => by rw [this]; exact prefix_map h⟩
  have done : ∀ {u : World H} {u' : World V}, Touch s.w u → Touch w u' → WRel (FRel f) u u' → ∀ g', CMatches R f { s with w := { u with g := g' } } { u' with g := g'.mapData f } :=
    fun t1 t2 hu g' => hm.touch (t1.graph g') (t2.graph _) ⟨gRel_map.2 rfl, hu.grad⟩
  cases h with
  | start => exact ⟨w, .start, hm⟩
  | @seeding g' h1 h2 => exact ⟨_, .seeding ((mp hr).1 h1) ((mp hsd).2 h2), done (.refl _) (.refl _) hr g'⟩
  | seeded => exact ⟨_, .seeded, hm.touch (seed_touch _ _ _) (seed_touch _ _ _) hsd⟩
  | @rule seen funcs pre post gxs t gr w1 g g' h1 h2 h3 h4 h5 h6 h7 =>
    obtain ⟨u1, e1, r1⟩ := ok (foldlM_rel (fun t _ _ hw => visit_rel hC.consts hw t) pre hsd) h3
    have hrule := rule_rel hC.consts r1.g t gr
    rw [h5] at hrule
    cases hx : Bwd.rule R.b.A u1.g t gr with
    | error e => rw [hx] at hrule; exact hrule.elim
    | ok q =>
      rw [hx] at hrule
      obtain ⟨ha, hb⟩ := hrule
      have hq := gRel_map.1 hb
      refine ⟨{ u1 with g := g'.mapData f }, .rule (by rw [← dfs_rel hsd.g]; exact h1) h2 e1 (by rw [← r1.grad]; exact h4) hx ((mp r1).1 h6) ?_,
        done ((seed_touch _ _ _).trans (foldlM_touch visit_touch _ h3)) ((seed_touch _ _ _).trans (foldlM_touch visit_touch _ e1)) r1 g'⟩
      rw [hq]; exact prefix_map h7
  | @adding seen funcs pre post gxs t gr w1 w2 w3 g g' dn rest p h1 h2 h3 h4 h5 h6 h7 h8 h9 h10 =>
    obtain ⟨u1, e1, r1⟩ := ok (foldlM_rel (fun t _ _ hw => visit_rel hC.consts hw t) pre hsd) h3
    have hrule := rule_rel hC.consts r1.g t gr
    rw [h5] at hrule
    cases hx : Bwd.rule R.b.A u1.g t gr with
    | error e => rw [hx] at hrule; exact hrule.elim
    | ok q =>
      rw [hx] at hrule
      obtain ⟨ha, hb⟩ := hrule
      obtain ⟨u2, e2, r2⟩ := ok (foldlM_rel (fun p _ _ hw => accum_rel hw p) dn (w1 := { w1 with g := g }) (w2 := { u1 with g := q.2 }) ⟨hb, r1.grad⟩) h7
      obtain ⟨u3, e3, r3⟩ := ok (accum_rel r2 p) h8
      have k1 : Touch s.w w2 := ((seed_touch C.A s.w y).trans (foldlM_touch visit_touch _ h3)).trans (by
        have := foldlM_touch accum_touch _ h7
        exact ⟨this.cpu, this.dev, this.cache, this.tmp, this.tick, this.log, this.epoch⟩)
      have k2 : Touch w u2 := ((seed_touch R.b.A w y).trans (foldlM_touch visit_touch _ e1)).trans (by
        have := foldlM_touch accum_touch _ e2
        exact ⟨this.cpu, this.dev, this.cache, this.tmp, this.tick, this.log, this.epoch⟩)
      have hq1 : q.1 = gxs := ha.symm
      have hx' : Bwd.rule R.b.A u1.g t gr = .ok (gxs, q.2) := by rw [hx, ← hq1]
      exact ⟨{ u2 with g := g'.mapData f }, .adding (by rw [← dfs_rel hsd.g]; exact h1) h2 e1 (by rw [← r1.grad]; exact h4) hx' (by rw [← r1.g.ctx]; exact h6) e2 e3 ((mp r2).1 h9) ((mp r3).2 h10),
        done k1 k2 r2 g'⟩

end Whale
