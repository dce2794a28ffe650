import Verif.Proofs.CtypesStep
import Verif.Props.Source
import Verif.Props.Backends
/-
C70: Python numbers in C memory and back.
-/
namespace Whale.Props
open Whale Mat Hist Kern Algo Sem
variable {H V S D : Type}

theorem exec1_lazy {R : Runtime V} {C : Marshal H V} {s : CWorld H V} {c : Call H} (hl : lazyCall c = true) (hr : c ≠ .reset) (hin : ∀ a ∈ c.arrays, a < s.w.g.length) :
    Cty.exec1 R C s c = (Src.lift (step (Cty.host R C) s.w c)).map fun p => (p.1, { s with w := p.2 }) := by
  unfold step
  rw [if_pos hin]
  cases c <;> first | exact absurd rfl hr | rfl | exact absurd hl Bool.false_ne_true

/-- C70, one call.  `s` is a session in which the host has Python numbers and compiled code C numbers, `w` the same session in C numbers only.  Where `w` raises, `s` raises the same exception; where `w`
returns, `s` returns what, read as C numbers, is the same, and the sessions remain the same; except that a `materialize` may stop at a number operation without a result. -/
theorem C70_step {o : Bool} {O : CFloats S D} {C : Marshal H (CVal S D)} {f : H → CVal S D} {dt : DType} {junk : CVal S D} {R : Runtime (CVal S D)} (hC : C.Suits f R dt) (hR : R.OK) (hb : Faithful R.b)
    (hI : IntLaws R.L R.N) (hL : R.L ≠ .python) (hN : R.N = cNum o O) (hA : R.b.A = scalarOf R.L R.N dt junk) (hj : Elem R.L R.N dt junk) {s : CWorld H (CVal S D)} {w : World (CVal S D)}
    (hr : Reachable R.b w) (hm : CMatches R f s w) {c : Call H} (hok : Cty.ArgsOK R C f dt s c) :
    (∃ e, step R.b w (c.map f) = .error e ∧ Cty.step R C s c = .error (.err e)) ∨
    ∃ r w', step R.b w (c.map f) = .ok (Out.map f r, w') ∧
      ((∃ s', Cty.step R C s c = .ok (r, s') ∧ CMatches R f s' w') ∨
        (Cty.step R C s c = .error (.fault .arith) ∧ ∃ a, c = .materialize a ∧ ¬ AllTotal R w.g (base w.g a))) := by
  have hsw : Cty.lower f s = w.plain := hm.same
  have hg := lower_g hsw
  have hlg : (Cty.lower f s).g = w.g := by rw [hsw]; rfl
  have hargs : ArgsOK R.b w (c.map f) := by
    have h1 := hok.1
    rw [hsw] at h1
    cases c <;> exact h1
  have hi := (hr.inv hb).winv
  have hconv : ∀ x v, convert R.N (elemType R.L dt) x = some v → Elem R.L R.N dt v := by rw [hN]; exact c_conv hL o O dt
  have typed : ∀ a, c = .materialize a ∨ c = .tolist a → Computed w.g (base w.g a) → ∀ i, Reach w.g (base w.g a) i → w.g.dtype i = dt ∧ ∀ v ∈ (den R.b.A w.g i).flatten, Elem R.L R.N dt v := by
    intro a hc hcomp i hreach
    have h1 := hok.2.2 a hc (by rw [hlg]; exact hcomp)
    rw [hlg] at h1
    refine ⟨(h1 i hreach).1, ?_⟩
    rw [hA]
    refine den_elem (P := Elem R.L R.N dt) ?_ ?_ ?_ fun j hj' l hl v hv => (h1 j (hreach.trans hj')).2 l hl v hv
    · exact scalarOf_elem_int hconv hj 0
    · exact fun op x _ => scalarOf_elem_un hconv hj op x
    · exact fun op x y _ _ => scalarOf_elem_bin hconv hj op x y
  unfold Cty.step
  rw [hg.length]
  by_cases hin : ∀ a ∈ c.arrays, a < w.g.length
  swap
  · rw [if_neg hin]
    exact .inl ⟨.badRef, by unfold step; rw [arrays_map, if_neg hin], rfl⟩
  rw [if_pos hin]
  by_cases hl : lazyCall c = true
  · by_cases hreset : c = .reset
    · subst hreset
      refine .inr ⟨.unit, _, rfl, .inl ⟨_, rfl, ?_, .nil⟩⟩
      unfold Cty.lower World.plain at hsw
      unfold Cty.lower
      injection hsw with a1 a2 a3 a4 a5 a6 a7 a8 a9 a10 a11 a12
      simp only [a1, a2, a3, a4, a8, a9]
    · rw [exec1_lazy hl hreset (by rw [hg.length]; exact hin)]
      rcases lazy_sim hC hm hl hreset hok.2.1 with ⟨e, h1, h2⟩ | ⟨r, v, w', h1, h2, h3⟩
      · exact .inl ⟨e, h1, by rw [h2]; rfl⟩
      · exact .inr ⟨r, w', h1, .inl ⟨_, by rw [h2]; rfl, h3⟩⟩
  · rcases notLazy hl with ⟨a, rfl⟩ | ⟨a, rfl⟩
    · have ha : a < w.g.length := hin a (by simp [Call.arrays])
      obtain ⟨w', e, hsim⟩ := cmaterialize_sim hC hR hb (P := ¬ AllTotal R w.g (base w.g a)) hi ha hargs.1 hargs.2.1
        (fun hgpu => kernelSizes_of hi.wf ha hargs.1 (hargs.2.2 hgpu))
        (fun hcomp => calls_ok hR hb hI hr hcomp hargs.1 (by
          have := hok.2.2 a (.inl rfl) (by rw [hlg]; exact hcomp)
          rw [hlg] at this
          exact suits_c o O hR hb hL hN hA hj hr hcomp hargs.1 this))
        (fun hcomp k ins sch K hG i hi' => by
          obtain ⟨r1, r2⟩ := gen_reach hb hr hcomp hargs.1 hG
          rcases hi' with rfl | hi'
          · exact typed a (.inl rfl) hcomp _ r1
          · exact typed a (.inl rfl) hcomp _ (r2 i hi')) hm
      refine .inr ⟨.unit, w', ?_, ?_⟩
      · unfold step
        rw [if_pos (by rw [arrays_map]; exact hin)]
        show exec1 R.b w (.materialize a) = _
        simp only [exec1, e]; rfl
      · rcases hsim with ⟨s', e', hm'⟩ | ⟨e', hP⟩
        · exact .inl ⟨s', by simp only [Cty.exec1, e']; rfl, hm'⟩
        · exact .inr ⟨by simp only [Cty.exec1, e']; rfl, a, rfl, hP⟩
    · have ha : a < w.g.length := hin a (by simp [Call.arrays])
      have hbl : base w.g a < w.g.length := Nat.lt_of_le_of_lt (base_le hi.wf ha) ha
      have hstep : step R.b w (.tolist a) = (tolist R.b w a).map fun p => (.list p.1, p.2) := by
        have hin' : ∀ x ∈ (Call.tolist a : Call (CVal S D)).arrays, x < w.g.length := hin
        unfold step
        rw [if_pos hin']
        simp only [exec1]
      rcases tolist_sim hC hi hm hbl (by
        intro hnone
        by_cases hcc : w.g.ctx (base w.g a) = .const
        · exfalso
          have hn := hi.wf (base w.g a) hbl
          unfold NodeOK at hn
          rw [show (w.g.nd (base w.g a)).ctx = w.g.ctx (base w.g a) from rfl, hcc] at hn
          obtain ⟨l, hl⟩ : ∃ l, (w.g.nd (base w.g a)).val = some l := by tauto
          unfold cpuBuf at hnone
          rw [hl] at hnone
          cases hx : w.cpu (base w.g a) with
          | none => rw [hx] at hnone; cases hnone
          | some y => rw [hx] at hnone; cases hnone
        · exact (typed a (.inr rfl) ⟨hbl, base_base hi.wf ha, hcc⟩ _ .refl).2) with ⟨e, h1, h2⟩ | ⟨l, s', w', h1, h2, h3⟩
      · refine .inl ⟨e, ?_, by simp only [Cty.exec1, h2]; rfl⟩
        show step R.b w (.tolist a) = _
        rw [hstep, h1]; rfl
      · refine .inr ⟨.list l, w', ?_, .inl ⟨s', by simp only [Cty.exec1, h2]; rfl, h3⟩⟩
        show step R.b w (.tolist a) = _
        rw [hstep, h1]; rfl

theorem cmatches_init (R : Runtime V) (f : H → V) : CMatches R f Cty.init Mat.init := ⟨by unfold Cty.lower Cty.init Mat.init Graph.mapData; rfl, .nil⟩

theorem cruns_sim {o : Bool} {O : CFloats S D} {C : Marshal H (CVal S D)} {f : H → CVal S D} {dt : DType} {junk : CVal S D} {R : Runtime (CVal S D)} (hC : C.Suits f R dt) (hR : R.OK) (hb : Faithful R.b)
    (hI : IntLaws R.L R.N) (hL : R.L ≠ .python) (hN : R.N = cNum o O) (hA : R.b.A = scalarOf R.L R.N dt junk) (hj : Elem R.L R.N dt junk) {s s' : CWorld H (CVal S D)} {w : World (CVal S D)}
    (hr : Reachable R.b w) (hm : CMatches R f s w) (h : CRuns R C f dt s s') : ∃ w', Runs R.b w w' ∧ Reachable R.b w' ∧ CMatches R f s' w' := by
  induction h with
  | refl => exact ⟨w, .refl, hr, hm⟩
  | @call s1 s' c o _ hok hs ih =>
    obtain ⟨w1, hw1, hr1, hm1⟩ := ih
    have hargs : ArgsOK R.b w1 (c.map f) := by
      have h1 := hok.1
      rw [show Cty.lower f s1 = w1.plain from hm1.same] at h1
      cases c <;> exact h1
    rcases C70_step hC hR hb hI hL hN hA hj hr1 hm1 hok with ⟨e, _, h2⟩ | ⟨o', w2, h1, h2⟩
    · rw [hs] at h2; cases h2
    · rcases h2 with ⟨s2, h2, hm2⟩ | ⟨h2, _⟩
      · rw [hs] at h2; cases h2
        have hn : next R.b w1 (c.map f) = some w2 := by unfold next; rw [h1]
        exact ⟨w2, .call hw1 (.inr hargs) hn, .call hr1 (.inr hargs) hn, hm2⟩
      · rw [hs] at h2; cases h2
  | @stopped s1 w' y _ hy hok hs ih =>
    obtain ⟨w1, hw1, hr1, hm1⟩ := ih
    have hsw : Cty.lower f s1 = w1.plain := hm1.same
    obtain ⟨w2, h2, hm2⟩ := stopped_sim hC hm1 hs
    have hy' : y < w1.g.length := by rw [← (lower_g hsw).length]; exact hy
    have hok' : ArgsOK R.b w1 (.backward y) := by rw [hsw] at hok; exact hok
    exact ⟨w2, .stopped hw1 hy' hok' h2, .stopped hr1 hy' hok' h2, hm2⟩

/-! ### what programs compute does not depend on how `run` is defined -/

theorem withRun_cstep {R : Runtime V} {C : Marshal H V} {run} (s : CWorld H V) (c : Call H) : Cty.step (R.withRun run) C s c = Cty.step R C s c := by
  have hF : ∀ (fuel : Nat) (s : CWorld H V) (a : Nat), Cty.materializeF (R.withRun run) C fuel s a = Cty.materializeF R C fuel s a := by
    intro fuel
    induction fuel with
    | zero => intro s a; rfl
    | succ n ih =>
      intro s a
      unfold Cty.materializeF
      have hf : ∀ t n, Cty.runFunc (R.withRun run) C t n = Cty.runFunc R C t n := fun t n => rfl
      simp only [ih, hf]
      rfl
  unfold Cty.step
  cases c <;> first | rfl | (simp only [Cty.exec1, Cty.materialize, hF])

theorem withRun_cruns {R : Runtime V} {C : Marshal H V} {f : H → V} {dt : DType} {run} {s s' : CWorld H V} (h : CRuns R C f dt s s') : CRuns (R.withRun run) C f dt s s' := by
  induction h with
  | refl => exact .refl
  | call _ hok hs ih => exact .call ih hok (by rw [withRun_cstep]; exact hs)
  | stopped _ hy hok hs ih => exact .stopped ih hy hok hs

/-- C70: whatever the program, the state of a session that converts every number on every copy is, read as C numbers, a state of a session without conversions: of the sessions all other properties are
about, on a backend with the same arithmetic. -/
theorem C70_session {o : Bool} {O : CFloats S D} {C : Marshal H (CVal S D)} {f : H → CVal S D} {dt : DType} {junk : CVal S D} {R : Runtime (CVal S D)} (hC : C.Suits f R dt) (hR : R.OK)
    (hI : IntLaws R.L R.N) (hL : R.L ≠ .python) (hN : R.N = cNum o O) (hA : R.b.A = scalarOf R.L R.N dt junk) (hj : Elem R.L R.N dt junk) {s : CWorld H (CVal S D)}
    (h : CReachable R C f dt s) : ∃ b, Faithful b ∧ b.A = R.b.A ∧ b.isC = R.b.isC ∧ b.isGpu = R.b.isGpu ∧ b.junk = R.b.junk ∧ ∃ w, Reachable b w ∧ CMatches R f s w := by
  obtain ⟨run, hb⟩ := faithful_run R
  obtain ⟨w, _, hr, hm⟩ := cruns_sim (R := R.withRun run) (junk := junk) ⟨hC.back, hC.out, hC.put, hC.zero, hC.isInt, hC.consts⟩ hR.withRun hb hI hL hN hA hj .init (cmatches_init _ f) (withRun_cruns h)
  exact ⟨_, hb, rfl, rfl, rfl, rfl, w, hr, hm.same, hm.texts⟩

/-- C70, `ctypes`: the conversions of CPython suit 64-bit integers and Python's floating point numbers. -/
theorem C70_suits {o : Bool} {O : CFloats S D} {dt : DType} {junk : CVal S D} {pj : Sem.Py D} {R : Runtime (CVal S D)} (hL : R.L ≠ .python) (hN : R.N = cNum o O)
    (hA : R.b.A = scalarOf R.L R.N dt junk) (hdt : dt = .int64 ∨ dt = .float64 ∧ (O.double.ofInt 0).isSome) :
    (ctypes O (scalarOf .python (pyNum O.double) .int64 pj)).Suits toC R dt := by
  have hint : ∀ v : CVal S D, Elem R.L R.N .int64 v → ∃ i, v = .i64 i ∧ Int64 i := by
    intro v h
    unfold Elem elemType at h
    rw [if_neg hL, hN] at h
    have h64 : ∀ {i : Int} {v : CVal S D}, CVal.in64 i = some v → v = .i64 i ∧ Int64 i := by
      intro i v h
      unfold CVal.in64 at h
      split at h
      · rename_i hi; cases h; exact ⟨rfl, hi⟩
      · cases h
    cases v with
    | i32 i => obtain ⟨h1, h2⟩ := h64 (i := i) h; cases h1
    | i64 i => exact ⟨i, rfl, (h64 (i := i) h).2⟩
    | f32 x =>
      change (O.single.trunc x).bind CVal.in64 = some _ at h
      cases ht : O.single.trunc x with
      | none => rw [ht] at h; cases h
      | some i => rw [ht] at h; cases (h64 (i := i) h).1
    | f64 x =>
      change (O.double.trunc x).bind CVal.in64 = some _ at h
      cases ht : O.double.trunc x with
      | none => rw [ht] at h; cases h
      | some i => rw [ht] at h; cases (h64 (i := i) h).1
  have hflt : ∀ v : CVal S D, Elem R.L R.N .float64 v → ∃ x, v = .f64 x := by
    intro v h
    unfold Elem elemType at h
    rw [if_neg hL, hN] at h
    change (v.toDouble O).map CVal.f64 = some v at h
    cases ht : v.toDouble O with
    | none => rw [ht] at h; cases h
    | some x => rw [ht] at h; exact ⟨x, by cases h; rfl⟩
  have hc : SameConstants SameC (scalarOf .python (pyNum O.double) .int64 pj) R.b.A := by
    rw [hA, hN]
    have := sameC_constants O o hL pj junk
    exact ⟨this.zero, this.one, this.two, this.fone⟩
  have hr : ∀ {h : Sem.Py D} {v : CVal S D}, SameNumber SameC (scalarOf .python (pyNum O.double) .int64 pj) R.b.A h v → SameNumber (fun h v => v = toC h) (scalarOf .python (pyNum O.double) .int64 pj) R.b.A h v := by
    rintro h v ⟨h1, h2⟩
    refine ⟨?_, h2⟩
    cases h1 <;> rfl
  refine ⟨?_, ?_, ?_, ?_, ?_, ⟨hr hc.zero, hr hc.one, hr hc.two, hr hc.fone⟩⟩
  · rintro (i | x) <;> rfl
  · intro v hv
    rcases hdt with rfl | ⟨rfl, _⟩
    · obtain ⟨i, rfl, _⟩ := hint v hv; rfl
    · obtain ⟨x, rfl⟩ := hflt v hv; rfl
  · intro h hv
    rcases hdt with rfl | ⟨rfl, _⟩
    · obtain ⟨i, h1, hi⟩ := hint _ hv
      cases h with
      | flt x => cases h1
      | int k =>
        cases h1
        show Except.ok (CVal.i64 (wrap 64 i)) = .ok (.i64 i)
        have : wrap 64 i = i := by
          unfold wrap Int64 at *
          omega
        rw [this]
    · obtain ⟨x, h1⟩ := hflt _ hv
      cases h with
      | flt x => rfl
      | int k => cases h1
  · rcases hdt with rfl | ⟨rfl, h0⟩
    · exact ⟨_, rfl⟩
    · obtain ⟨x, hx⟩ := Option.isSome_iff_exists.1 h0
      refine ⟨.f64 x, ?_⟩
      show (match O.double.ofInt 0 with
        | some x => Except.ok (CVal.f64 x)
        | none => Except.error (SErr.fault .arith)) = _
      rw [hx]
  · intro h
    rw [hA, hN]
    cases h <;> rfl

/-- C70, what is read back: the Python numbers of the array that the list of calls describes. -/
theorem C70_value {o : Bool} {O : CFloats S D} {C : Marshal H (CVal S D)} {f : H → CVal S D} {dt : DType} {junk : CVal S D} {R : Runtime (CVal S D)} (hC : C.Suits f R dt) (hR : R.OK)
    (hI : IntLaws R.L R.N) (hL : R.L ≠ .python) (hN : R.N = cNum o O) (hA : R.b.A = scalarOf R.L R.N dt junk) (hj : Elem R.L R.N dt junk) {s : CWorld H (CVal S D)}
    (h : CReachable R C f dt s) {a : Nat} (hok : Cty.ArgsOK R C f dt s (.tolist a)) (hno : NoOffsetReshape (Cty.lower f s).g a) {l : Nested H} {s' : CWorld H (CVal S D)}
    (ht : Cty.step R C s (.tolist a) = .ok (.list l, s')) : l = (den R.b.A (Cty.lower f s).g a).toNested.map C.get := by
  obtain ⟨run, hb⟩ := faithful_run R
  have hC' : C.Suits f (R.withRun run) dt := ⟨hC.back, hC.out, hC.put, hC.zero, hC.isInt, hC.consts⟩
  obtain ⟨w, _, hr, hm⟩ := cruns_sim (R := R.withRun run) (junk := junk) hC' hR.withRun hb hI hL hN hA hj .init (cmatches_init _ f) (withRun_cruns h)
  have hlg : (Cty.lower f s).g = w.g := by rw [show Cty.lower f s = w.plain from hm.same]; rfl
  rw [hlg] at hno ⊢
  rcases C70_step (R := R.withRun run) hC' hR.withRun hb hI hL hN hA hj hr hm (c := .tolist a) hok with ⟨e, _, h2⟩ | ⟨r, w', h1, h2⟩
  · rw [withRun_cstep, ht] at h2; cases h2
  · rcases h2 with ⟨s2, h2, _⟩ | ⟨h2, _⟩
    · rw [withRun_cstep, ht] at h2
      cases h2
      have := tolist_value hb hr hno h1
      change l.map f = (den R.b.A w.g a).toNested at this
      rw [← this, map_map, map_congr (g := id) l (fun v _ => hC.back v), map_id]
    · rw [withRun_cstep, ht] at h2; cases h2

theorem cboth_sim {o : Bool} {O : CFloats S D} {j1 : Sem.Py D} {junk : CVal S D} {R : Runtime (CVal S D)} (hR : R.OK) (hb : Faithful R.b) (hI : IntLaws R.L R.N) (hL : R.L ≠ .python) (hN : R.N = cNum o O)
    (hA : R.b.A = scalarOf R.L R.N .int64 junk) (hj : Elem R.L R.N .int64 junk) {b : Backend (Sem.Py D)} (hbA : b.A = scalarOf .python (pyNum O.double) .int64 j1)
    {s : CWorld (Sem.Py D) (CVal S D)} {w : World (Sem.Py D)} (h : CBoth R (ctypes O b.A) b .int64 s w) : ∃ w2, Both SameC b R.b w w2 ∧ CMatches R toC s w2 := by
  have hC : (ctypes O b.A).Suits toC R .int64 := by rw [hbA]; exact C70_suits hL hN hA (.inl rfl)
  induction h with
  | init => exact ⟨_, .init, cmatches_init _ _⟩
  | @call s s' w w' c r r' _ hsm hok hs hok' hs' ih =>
    obtain ⟨w2, hboth, hm⟩ := ih
    have hr : Reachable R.b w2 := hboth.reachable.2
    have hargs : ArgsOK R.b w2 (c.map toC) := by
      have h1 := hok.1
      rw [show Cty.lower toC s = w2.plain from hm.same] at h1
      cases c <;> exact h1
    rcases C70_step hC hR hb hI hL hN hA hj hr hm hok with ⟨e, _, h2⟩ | ⟨o', w3, h1, h2⟩
    · rw [hs] at h2; cases h2
    · rcases h2 with ⟨s2, h2, hm2⟩ | ⟨h2, _⟩
      · rw [hs] at h2; cases h2
        refine ⟨w3, .call (c := c.map (numPair toC)) hboth ?_ (.inr (by rw [call_fst]; exact hok')) (by rw [call_fst]; unfold next; rw [hs']) (.inr (by rw [call_snd]; exact hargs))
          (by rw [call_snd]; unfold next; rw [h1]), hm2⟩
        have hcs := call_same hC hok.2.1
        constructor
        · intro p hp
          have h1 := hcs.1 p hp
          refine ⟨?_, h1.2⟩
          obtain ⟨u, v⟩ := p
          have hv : v = toC u := h1.1
          subst hv
          cases u with
          | flt x => exact .flt
          | int i =>
            refine .int (hsm.1 i ?_)
            have hnum : (c.map (numPair toC)).numbers = c.numbers.map (numPair (toC (S := S))) := by
              cases c <;> first | rfl | exact leaves_map _ _
            rw [hnum] at hp
            obtain ⟨x, hx, he⟩ := List.mem_map.1 hp
            have : x = .int i := congrArg Prod.fst he
            rw [← this]; exact hx
        · intro n hn i h0 h1
          have h2 := hcs.2 n hn i h0 h1
          refine ⟨?_, h2.2⟩
          have hc : c = .arange n := by
            cases c <;> simp only [Call.map] at hn <;> first | (cases hn; rfl) | cases hn
          have hle := hsm.2 n hc
          have e1 : b.A.host i = .int i := by
            have : intV (pyNum O.double) i = some (Sem.Py.int i) := by
              unfold intV
              rw [if_neg (by omega)]
              show some (Sem.Py.int ((i.natAbs : Nat) : Int)) = _
              rw [Int.natAbs_of_nonneg h0]
            rw [hbA]
            unfold scalarOf
            simp only [this]
            rfl
          have hv : R.b.A.host i = toC (b.A.host i) := h2.1
          rw [hv, e1]
          exact .int ⟨by omega, by omega⟩
      · rw [hs] at h2; cases h2

theorem withRun_cboth {R : Runtime (CVal S D)} {C : Marshal (Sem.Py D) (CVal S D)} {b : Backend (Sem.Py D)} {dt : DType} {run} {s : CWorld (Sem.Py D) (CVal S D)} {w : World (Sem.Py D)}
    (h : CBoth R C b dt s w) : CBoth (R.withRun run) C b dt s w := by
  induction h with
  | init => exact .init
  | call _ h1 h2 h3 h4 h5 ih => exact .call ih h1 h2 (by rw [withRun_cstep]; exact h3) h4 h5

/-- C70, integers.  Run the same program of 64-bit integers with the Python backend and with the Clang or the CUDA backend (which convert every number on every copy).  If an array is computed from
integers by negation, sum, difference and product (and all data movement) and no result on the way leaves the 64-bit range, then both sessions read back the same list of Python integers. -/
theorem C70_int_partial {o : Bool} {O : CFloats S D} {j1 : Sem.Py D} {junk : CVal S D} {R : Runtime (CVal S D)} (hR : R.OK) (hI : IntLaws R.L R.N) (hL : R.L ≠ .python) (hN : R.N = cNum o O)
    (hA : R.b.A = scalarOf R.L R.N .int64 junk) (hj : Elem R.L R.N .int64 junk) {b : Backend (Sem.Py D)} (hfb : Faithful b) (hbA : b.A = scalarOf .python (pyNum O.double) .int64 j1)
    {s : CWorld (Sem.Py D) (CVal S D)} {w : World (Sem.Py D)} (h : CBoth R (ctypes O b.A) b .int64 s w) {a : Nat} (hok : Cty.ArgsOK R (ctypes O b.A) toC .int64 s (.tolist a))
    (hno : NoOffsetReshape w.g a) (hx : ∀ v ∈ leaves (den exact64 (Graph.mapData asInt64 w.g) a).toNested, v ≠ none)
    {l1 l2 w' s'} (h1 : step b w (.tolist a) = .ok (.list l1, w')) (h2 : Cty.step R (ctypes O b.A) s (.tolist a) = .ok (.list l2, s')) :
    ∃ n : Nested Int, l1 = n.map .int ∧ l2 = n.map .int := by
  obtain ⟨run, hb⟩ := faithful_run R
  obtain ⟨w2, hboth, hm⟩ := cboth_sim (R := R.withRun run) hR.withRun hb hI hL hN hA hj hbA (withRun_cboth h)
  have hC : (ctypes O b.A).Suits toC (R.withRun run) .int64 := by rw [hbA]; exact C70_suits hL hN hA (.inl rfl)
  rcases C70_step (R := R.withRun run) hC hR.withRun hb hI hL hN hA hj hboth.reachable.2 hm (c := .tolist a) hok with ⟨e, _, h3⟩ | ⟨r, w3, h3, h4⟩
  · rw [withRun_cstep, h2] at h3; cases h3
  · rcases h4 with ⟨s2, h4, _⟩ | ⟨h4, _⟩
    · rw [withRun_cstep, h2] at h4
      cases h4
      obtain ⟨n, e1, e2⟩ := C50_int O o hL j1 junk hfb hb hbA (by show R.b.A = _; rw [hA, hN]) hboth hno hx h1 h3
      refine ⟨n, e1, ?_⟩
      have := congrArg (Nested.map (ctypesGet O)) e2
      rw [map_map, map_map, map_congr (f := fun v => ctypesGet O (toC v)) (g := id) l2 (fun v _ => hC.back v), map_id] at this
      rw [this]; rfl
    · rw [withRun_cstep, h2] at h4; cases h4

/-! ### examples -/

/-- Run times over 64-bit integers (`dt = int64`) or fractions (`dt = float64`), in C and on a GPU. -/
noncomputable def cRunOf (isGpu : Bool) (dt : DType) (junk : CVal Rat Rat) : Runtime (CVal Rat Rat) :=
  ⟨demoBackend (scalarOf (if isGpu then .cuda else .clang) (cNum isGpu ratC) dt junk) true isGpu (fun _ => junk), if isGpu then .cuda else .clang, cNum isGpu ratC, fun _ => "0a".toList,
    fun _ sch => (threads sch).reverse⟩

/-- CPython's conversions. -/
def pyC : Marshal (Sem.Py Rat) (CVal Rat Rat) := ctypes ratC pyFrac.A

/-- Numbers of an element type. -/
def elemB : DType → CVal Rat Rat → Bool
  | .int64, .i64 i => decide (Int64 i)
  | .float64, .f64 _ => true
  | _, _ => false

theorem elemB_sound {g : Bool} {dt : DType} {junk v : CVal Rat Rat} (h : elemB dt v = true) : Elem (cRunOf g dt junk).L (cRunOf g dt junk).N dt v := by
  cases dt <;> cases v <;> first | cases h | skip
  · cases g <;> exact if_pos (of_decide_eq_true h)
  · cases g <;> rfl

/-- All arrays have one element type. -/
def typedB (dt : DType) (g : Graph (Sem.Py Rat)) : Bool := g.all fun n => decide (n.dtype = dt) && (n.val.getD []).all fun v => elemB dt (toC v)

def noArange : Call (Sem.Py Rat) → Bool
  | .arange _ => false
  | _ => true

/-- Running a list of calls, with a check of all requirements. -/
noncomputable def ctyRun (g : Bool) (dt : DType) (junk : CVal Rat Rat) : CWorld (Sem.Py Rat) (CVal Rat Rat) → List (Call (Sem.Py Rat)) → Option (CWorld (Sem.Py Rat) (CVal Rat Rat))
  | s, [] => some s
  | s, c :: cs => match Cty.step (cRunOf g dt junk) pyC s c with
    | .ok (_, s') => if argsOKb (cRunOf g dt junk).b (Cty.lower toC s) (c.map toC) && (typedB dt s.w.g && noArange c) then ctyRun g dt junk s' cs else none
    | .error _ => none

theorem cRunOf_ok (g : Bool) (dt : DType) (junk : CVal Rat Rat) : (cRunOf g dt junk).OK :=
  ⟨(by cases g <;> constructor <;> intro h <;> first | rfl | cases h), fun _ => (by decide : ∀ c ∈ "0a".toList, c ∈ "0123456789abcdef".toList), fun _ _ => List.reverse_perm _⟩

theorem cRunOf_lang (g : Bool) (dt : DType) (junk : CVal Rat Rat) : (cRunOf g dt junk).L ≠ .python := by cases g <;> (intro h; cases h)

theorem cRunOf_faithful (g : Bool) (dt : DType) (junk : CVal Rat Rat) : Faithful (cRunOf g dt junk).b := demoBackend_faithful _ _ _ _

theorem cRunOf_int (g : Bool) (dt : DType) (junk : CVal Rat Rat) : IntLaws (cRunOf g dt junk).L (cRunOf g dt junk).N := c_int (cRunOf_lang g dt junk) _ _

theorem pyC_suits (g : Bool) {dt : DType} (junk : CVal Rat Rat) (hdt : dt = .int64 ∨ dt = .float64) : pyC.Suits toC (cRunOf g dt junk) dt :=
  C70_suits (o := g) (junk := junk) (cRunOf_lang g dt junk) rfl rfl (by rcases hdt with rfl | rfl; exacts [.inl rfl, .inr ⟨rfl, rfl⟩])

/-- What is checked is what is required. -/
theorem ctyArgs {g : Bool} {dt : DType} {junk : CVal Rat Rat} (hdt : dt = .int64 ∨ dt = .float64) (hj : elemB dt junk = true) {s : CWorld (Sem.Py Rat) (CVal Rat Rat)}
    (h : CReachable (cRunOf g dt junk) pyC toC dt s) {c : Call (Sem.Py Rat)} (hin : ∀ a ∈ c.arrays, a < s.w.g.length)
    (hc : (argsOKb (cRunOf g dt junk).b (Cty.lower toC s) (c.map toC) && (typedB dt s.w.g && noArange c)) = true) : Cty.ArgsOK (cRunOf g dt junk) pyC toC dt s c := by
  rw [Bool.and_eq_true, Bool.and_eq_true] at hc
  obtain ⟨h1, h2, h3⟩ := hc
  have hf := cRunOf_faithful g dt junk
  obtain ⟨w, _, hr, hm⟩ := cruns_sim (pyC_suits g junk hdt) (cRunOf_ok g dt junk) hf (cRunOf_int g dt junk) (cRunOf_lang g dt junk) rfl rfl (elemB_sound hj) .init (cmatches_init _ _) h
  have hlg : (Cty.lower toC s).g = w.g := by rw [show Cty.lower toC s = w.plain from hm.same]; rfl
  have hwf : WF (Cty.lower toC s).g := by rw [hlg]; exact (hr.inv hf).winv.wf
  have hlen : (Cty.lower toC s).g.length = s.w.g.length := by rw [hlg]; exact ((lower_g hm.same).length).symm
  refine ⟨argsOKb_sound (by rw [arrays_map, hlen]; exact hin) hwf h1, ?_, ?_⟩
  · intro n hn
    subst hn
    cases h3
  · intro a _ hcomp i hreach
    have hlt : i < (Cty.lower toC s).g.length := Nat.lt_of_le_of_lt (hreach.le hwf hcomp.1) hcomp.1
    have hmem := nd_mem hlt
    unfold Cty.lower Graph.mapData at hmem
    obtain ⟨n, hn, he⟩ := List.mem_map.1 hmem
    unfold typedB at h2
    rw [List.all_eq_true] at h2
    have h4 := h2 n hn
    rw [Bool.and_eq_true] at h4
    refine ⟨?_, fun l hl v hv => ?_⟩
    · show ((Cty.lower toC s).g.nd i).dtype = dt
      change _ = (Cty.lower toC s).g.nd i at he
      rw [← he]; exact of_decide_eq_true h4.1
    · change _ = (Cty.lower toC s).g.nd i at he
      rw [← he] at hl
      cases hval : n.val with
      | none => rw [hval] at hl; cases hl
      | some l0 =>
        rw [hval] at hl
        cases hl
        obtain ⟨x, hx, rfl⟩ := List.mem_map.1 hv
        have h5 := h4.2
        rw [hval, Option.getD_some, List.all_eq_true] at h5
        exact elemB_sound (h5 x hx)

theorem ctyRun_runs {g : Bool} {dt : DType} {junk : CVal Rat Rat} (hdt : dt = .int64 ∨ dt = .float64) (hj : elemB dt junk = true) {cs : List (Call (Sem.Py Rat))} :
    ∀ {s s' : CWorld (Sem.Py Rat) (CVal Rat Rat)}, CReachable (cRunOf g dt junk) pyC toC dt s → ctyRun g dt junk s cs = some s' → CReachable (cRunOf g dt junk) pyC toC dt s' := by
  induction cs with
  | nil => intro s s' h hr; cases hr; exact h
  | cons c cs ih =>
    intro s s' h hr
    unfold ctyRun at hr
    split at hr
    · rename_i o s1 hs
      split at hr
      · rename_i hc
        have hin : ∀ a ∈ c.arrays, a < s.w.g.length := by
          unfold Cty.step at hs
          split at hs
          · assumption
          · cases hs
        exact ih (.call h (ctyArgs hdt hj h hin hc) hs) hr
      · cases hr
    · cases hr

/-- The list `tolist` returns after a program: shape and elements. -/
noncomputable def ctyList (g : Bool) (dt : DType) (junk : CVal Rat Rat) (cs : List (Call (Sem.Py Rat))) (a : Nat) : Option (List Int × List (Sem.Py Rat)) := do
  let s ← ctyRun g dt junk Cty.init cs
  match Cty.step (cRunOf g dt junk) pyC s (.tolist a) with
  | .ok (.list l, _) => some (shapeOf l, leaves l)
  | _ => none

def pyInts23 : Nested (Sem.Py Rat) := .node [.node [.leaf (.int 1), .leaf (.int 2), .leaf (.int 3)], .node [.leaf (.int 4), .leaf (.int 5), .leaf (.int 6)]]

/-- A product of the transpose with itself. -/
def pyIntsProg : List (Call (Sem.Py Rat)) := [.array pyInts23, .transpose 0 [1, 0], .bin .mul 1 1, .sum 2 .none false]

def pyFltProg : List (Call (Sem.Py Rat)) := [.array (.node [.leaf (.flt (5 / 2)), .leaf (.flt (-1))]), .bin .truediv 0 0, .bin .add 0 1]

/-- The hypotheses of `C70_step`, `C70_session` and `C70_value` are met, with integers and with fractions, in C and on a GPU; Python numbers are read back. -/
example : (∀ g dt junk, dt = .int64 ∨ dt = .float64 → elemB dt junk = true → pyC.Suits toC (cRunOf g dt junk) dt ∧ (cRunOf g dt junk).OK ∧ IntLaws (cRunOf g dt junk).L (cRunOf g dt junk).N ∧
      Elem (cRunOf g dt junk).L (cRunOf g dt junk).N dt junk ∧ ∀ cs s, ctyRun g dt junk Cty.init cs = some s → CReachable (cRunOf g dt junk) pyC toC dt s) ∧
    ctyList false .int64 (.i64 77) (pyIntsProg ++ [.materialize 2]) 2 = some ([3, 2], [.int 1, .int 16, .int 4, .int 25, .int 9, .int 36]) ∧
    ctyList true .int64 (.i64 77) (pyIntsProg ++ [.materialize 3]) 3 = some ([], [.int 91]) ∧
    ctyList false .float64 (.f64 77) (pyFltProg ++ [.materialize 2]) 2 = some ([2], [.flt (7 / 2), .flt 0]) ∧
    ctyList true .float64 (.f64 77) (pyFltProg ++ [.materialize 2]) 2 = some ([2], [.flt (7 / 2), .flt 0]) := by
  refine ⟨fun g dt junk hdt hj => ⟨pyC_suits g junk hdt, cRunOf_ok g dt junk, cRunOf_int g dt junk, elemB_sound hj, fun cs s h => ctyRun_runs hdt hj .refl h⟩, ?_, ?_, ?_, ?_⟩ <;> decide +kernel

/-- Running a program with both. -/
noncomputable def bothRun (g : Bool) (junk : CVal Rat Rat) : CWorld (Sem.Py Rat) (CVal Rat Rat) × World (Sem.Py Rat) → List (Call (Sem.Py Rat)) → Option (CWorld (Sem.Py Rat) (CVal Rat Rat) × World (Sem.Py Rat))
  | p, [] => some p
  | p, c :: cs => match Cty.step (cRunOf g .int64 junk) pyC p.1 c, step pyFrac p.2 c with
    | .ok (_, s'), .ok (_, w') =>
      if (argsOKb (cRunOf g .int64 junk).b (Cty.lower toC p.1) (c.map toC) && (typedB .int64 p.1.w.g && noArange c)) && (argsOKb pyFrac p.2 c && c.numbers.all fun v => elemB .int64 (toC v)) then
        bothRun g junk (s', w') cs else none
    | _, _ => none

theorem bothRun_both {g : Bool} {junk : CVal Rat Rat} (hj : elemB .int64 junk = true) {cs : List (Call (Sem.Py Rat))} : ∀ {p p'}, CReachable (cRunOf g .int64 junk) pyC toC .int64 p.1 → Reachable pyFrac p.2 →
    CBoth (cRunOf g .int64 junk) pyC pyFrac .int64 p.1 p.2 → bothRun g junk p cs = some p' →
    CReachable (cRunOf g .int64 junk) pyC toC .int64 p'.1 ∧ CBoth (cRunOf g .int64 junk) pyC pyFrac .int64 p'.1 p'.2 := by
  induction cs with
  | nil => intro p p' h _ hb hr; cases hr; exact ⟨h, hb⟩
  | cons c cs ih =>
    intro p p' h hw hb hr
    unfold bothRun at hr
    split at hr
    · rename_i o s1 o' w1 hs hs'
      split at hr
      · rename_i hc
        rw [Bool.and_eq_true, Bool.and_eq_true (argsOKb pyFrac p.2 c)] at hc
        obtain ⟨h1, h2, h3⟩ := hc
        have hin : ∀ a ∈ c.arrays, a < p.1.w.g.length := by
          unfold Cty.step at hs
          split at hs
          · assumption
          · cases hs
        have hin' : ∀ a ∈ c.arrays, a < p.2.g.length := by
          unfold step at hs'
          split at hs'
          · assumption
          · cases hs'
        have hok := ctyArgs (.inl rfl) hj h hin h1
        have hok' : ArgsOK pyFrac p.2 c := argsOKb_sound hin' (hw.inv (pythonBackend_faithful _)).winv.wf h2
        refine ih (.call h hok hs) (.call hw (.inr hok') (by unfold next; rw [hs'])) (.call hb ⟨?_, ?_⟩ hok hs hok' hs') hr
        · intro i hi
          rw [List.all_eq_true] at h3
          exact of_decide_eq_true (h3 _ hi)
        · intro n hn
          subst hn
          rw [Bool.and_eq_true, Bool.and_eq_true] at h1
          cases h1.2.2
      · cases hr
    · cases hr

/-- Both lists. -/
noncomputable def bothLists (g : Bool) (cs : List (Call (Sem.Py Rat))) (a : Nat) : Option ((List Int × List (Sem.Py Rat)) × (List Int × List (Sem.Py Rat))) := do
  let p ← bothRun g (.i64 77) (Cty.init, Mat.init) cs
  match step pyFrac p.2 (.tolist a), Cty.step (cRunOf g .int64 (.i64 77)) pyC p.1 (.tolist a) with
  | .ok (.list l, _), .ok (.list l', _) => some ((shapeOf l, leaves l), (shapeOf l', leaves l'))
  | _, _ => none

/-- The hypotheses of `C70_int_partial` are met, in C and on a GPU. -/
example : (∀ g cs p, bothRun g (.i64 77) (Cty.init, Mat.init) cs = some p → CBoth (cRunOf g .int64 (.i64 77)) pyC pyFrac .int64 p.1 p.2) ∧
    bothLists false (pyIntsProg ++ [.materialize 2]) 2 = some (([3, 2], [.int 1, .int 16, .int 4, .int 25, .int 9, .int 36]), ([3, 2], [.int 1, .int 16, .int 4, .int 25, .int 9, .int 36])) ∧
    (∃ p, bothRun true (.i64 77) (Cty.init, Mat.init) (pyIntsProg ++ [.materialize 3]) = some p ∧ NoOffsetReshape p.2.g 3 ∧ ∀ v ∈ leaves (den exact64 (Graph.mapData asInt64 p.2.g) 3).toNested, v ≠ none) ∧
    bothLists true (pyIntsProg ++ [.materialize 3]) 3 = some (([], [.int 91]), ([], [.int 91])) := by
  refine ⟨fun g cs p h => (bothRun_both (p := (Cty.init, Mat.init)) (by rfl) .refl .init .init h).2, by decide +kernel, ?_, by decide +kernel⟩
  have : (bothRun true (.i64 77) (Cty.init, Mat.init) (pyIntsProg ++ [.materialize 3])).isSome = true ∧ ∀ p, bothRun true (.i64 77) (Cty.init, Mat.init) (pyIntsProg ++ [.materialize 3]) = some p → 
      (p.2.g.ctx 3).op.isView = false ∧ ∀ v ∈ leaves (den exact64 (Graph.mapData asInt64 p.2.g) 3).toNested, v ≠ none := by
    have e : ∀ q : Option (CWorld (Sem.Py Rat) (CVal Rat Rat) × World (Sem.Py Rat)), (q.all fun p => !(p.2.g.ctx 3).op.isView && (leaves (den exact64 (Graph.mapData asInt64 p.2.g) 3).toNested).all (·.isSome)) = true → 
        ∀ p, q = some p → (p.2.g.ctx 3).op.isView = false ∧ ∀ v ∈ leaves (den exact64 (Graph.mapData asInt64 p.2.g) 3).toNested, v ≠ none := by
      rintro q hq p rfl
      rw [Option.all_some, Bool.and_eq_true, List.all_eq_true] at hq
      refine ⟨by simpa using hq.1, fun v hv hn => ?_⟩
      have := hq.2 v hv
      rw [hn] at this; cases this
    exact ⟨by decide +kernel, e _ (by decide +kernel)⟩
  obtain ⟨p, hp⟩ := Option.isSome_iff_exists.1 this.1
  exact ⟨p, hp, .base (this.2 p hp).1, (this.2 p hp).2⟩

/-! ### where the conversions change a program -/

/-- Calls without any requirement. -/
noncomputable def freely (g : Bool) (dt : DType) (junk : CVal Rat Rat) (cs : List (Call (Sem.Py Rat))) : Except SErr (CWorld (Sem.Py Rat) (CVal Rat Rat)) :=
  cs.foldlM (fun s c => (Cty.step (cRunOf g dt junk) pyC s c).map (·.2)) Cty.init

noncomputable def freeList (g : Bool) (dt : DType) (junk : CVal Rat Rat) (cs : List (Call (Sem.Py Rat))) (a : Nat) : Option (List Int × List (Sem.Py Rat)) := match freely g dt junk cs with
  | .ok s => (match Cty.step (cRunOf g dt junk) pyC s (.tolist a) with
    | .ok (.list l, _) => some (shapeOf l, leaves l)
    | _ => none)
  | .error _ => none

noncomputable def freeError (g : Bool) (dt : DType) (junk : CVal Rat Rat) (cs : List (Call (Sem.Py Rat))) : Option SErr := match freely g dt junk cs with
  | .ok _ => none
  | .error e => some e

/-- `-array([2**63 + 5])` -/
def bigProg : List (Call (Sem.Py Rat)) := [.array (.node [.leaf (.int 9223372036854775813)]), .un .neg 0, .materialize 1]

/-- `-array([1, 2.5])` -/
def mixedProg : List (Call (Sem.Py Rat)) := [.array (.node [.leaf (.int 1), .leaf (.flt (5 / 2))]), .un .neg 0, .materialize 1]

/-- C70 is false without the restriction to 64 bits: the element 2^63+5 is silently replaced by 5-2^63 on its way into compiled code; the Python backend returns the negative of what was written, the others
(the Clang backend here) 2^63-5. -/
theorem C70_counterexample_wraps : listOf pyFrac (Demo.afterOn pyFrac bigProg) 1 = some ([1], [.int (-9223372036854775813)]) ∧
    freeList false .int64 (.i64 77) bigProg 1 = some ([1], [.int 9223372036854775803]) := by
  refine ⟨?_, ?_⟩ <;> decide +kernel

/-- … and without the restriction to one element type: a list that begins with an integer and contains a fraction raises TypeError with the Clang backend, not with the Python backend. -/
theorem C70_counterexample_mixed : listOf pyFrac (Demo.afterOn pyFrac mixedProg) 1 = some ([2], [.int (-1), .flt (-5 / 2)]) ∧
    freeError false .int64 (.i64 77) mixedProg = some (.err .typeError) ∧ freeError true .int64 (.i64 77) mixedProg = some (.err .typeError) := by
  refine ⟨?_, ?_, ?_⟩ <;> decide +kernel

end Whale.Props
