import Verif.Proofs.KernelLoops
import Verif.Proofs.Topo
/-
Whole kernels with a CPU schedule.
-/
namespace Whale
open Algo Codegen Kern
variable {V : Type} [Lim]

/-! ### generated code has no parallel loops outside of the spatial nest -/

theorem genI_noPar {e : IExpr} {n n' : Nat} {s : Stmt} {k : KI} (h : genI e n = .ok (s, k, n')) : noPar s = true := by
  induction e generalizing n n' s k with
  | index l => cases h; rfl
  | const c => cases h; rfl
  | bin op l r ihl ihr =>
    simp only [genI, bind, Except.bind] at h
    split at h
    · cases h
    · cases h1 : genI l n with
      | error e => simp [h1] at h
      | ok p =>
        obtain ⟨s1, k1, n1⟩ := p
        cases h2 : genI r n1 with
        | error e => simp [h1, h2] at h
        | ok p =>
          obtain ⟨s2, k2, n2⟩ := p
          simp only [h1, h2, pure, Except.pure, Except.ok.injEq, Prod.mk.injEq] at h
          obtain ⟨rfl, rfl, rfl⟩ := h
          simp [noPar, ihl h1, ihr h2]

theorem genIs_noPar {es : List IExpr} {n n' : Nat} {s : Stmt} {k : List KI} (h : genIs es n = .ok (s, k, n')) : noPar s = true := by
  induction es generalizing n n' s k with
  | nil => cases h; rfl
  | cons e es ih =>
    simp only [genIs, bind, Except.bind] at h
    cases h1 : genI e n with
    | error e => simp [h1] at h
    | ok p =>
      obtain ⟨s1, k1, n1⟩ := p
      cases h2 : genIs es n1 with
      | error e => simp [h1, h2] at h
      | ok p =>
        obtain ⟨s2, k2, n2⟩ := p
        simp only [h1, h2, pure, Except.pure, Except.ok.injEq, Prod.mk.injEq] at h
        obtain ⟨rfl, rfl, rfl⟩ := h
        simp [noPar, genI_noPar h1, ih h2]

theorem redLoops_noPar {ls : List LoopIndex} {b : Stmt} (h : noPar b = true) : noPar (redLoops ls b) = true := by
  induction ls with
  | nil => exact h
  | cons l ls ih => simp [redLoops, noPar, ih, isPar]

theorem genD_noPar {g : Graph V} {tbl : Tbl} {args : Args} {dt : DType} {e : DExpr} {n n' : Nat} {s : Stmt} {k : KD}
    (h : genD g tbl args dt e n = .ok (s, k, n')) : noPar s = true := by
  induction e generalizing n n' s k with
  | const c => cases h; rfl
  | un op e ih =>
    simp only [genD, bind, Except.bind] at h
    split at h
    · cases h
    · cases h1 : genD g tbl args dt e n with
      | error e => simp [h1] at h
      | ok p =>
        obtain ⟨s1, k1, n1⟩ := p
        simp only [h1, pure, Except.pure, Except.ok.injEq, Prod.mk.injEq] at h
        obtain ⟨rfl, rfl, rfl⟩ := h
        simp [noPar, ih h1]
  | bin op l r ihl ihr =>
    simp only [genD, bind, Except.bind] at h
    split at h
    · cases h
    · cases h1 : genD g tbl args dt l n with
      | error e => simp [h1] at h
      | ok p =>
        obtain ⟨s1, k1, n1⟩ := p
        cases h2 : genD g tbl args dt r n1 with
        | error e => simp [h1, h2] at h
        | ok p =>
          obtain ⟨s2, k2, n2⟩ := p
          simp only [h1, h2, pure, Except.pure, Except.ok.injEq, Prod.mk.injEq] at h
          obtain ⟨rfl, rfl, rfl⟩ := h
          simp [noPar, ihl h1, ihr h2]
  | tern op c t f iht ihf =>
    simp only [genD, bind, Except.bind] at h
    split at h
    · cases h
    · cases h1 : genI c (n + 1) with
      | error e => simp [h1] at h
      | ok p =>
        obtain ⟨s1, k1, n1⟩ := p
        cases h2 : genD g tbl args dt t n1 with
        | error e => simp [h1, h2] at h
        | ok p =>
          obtain ⟨s2, k2, n2⟩ := p
          cases h3 : genD g tbl args dt f n2 with
          | error e => simp [h1, h2, h3] at h
          | ok p =>
            obtain ⟨s3, k3, n3⟩ := p
            simp only [h1, h2, h3, pure, Except.pure, Except.ok.injEq, Prod.mk.injEq] at h
            obtain ⟨rfl, rfl, rfl⟩ := h
            simp [noPar, genI_noPar h1, iht h2, ihf h3]
  | red op e rs ih =>
    simp only [genD, bind, Except.bind] at h
    cases h1 : genD g tbl args dt e n with
    | error e => simp [h1] at h
    | ok p =>
      obtain ⟨s1, k1, n1⟩ := p
      simp only [h1] at h
      split at h
      · cases h
      · simp only [pure, Except.pure, Except.ok.injEq, Prod.mk.injEq] at h
        obtain ⟨rfl, rfl, rfl⟩ := h
        simp only [noPar, Bool.true_and]
        exact redLoops_noPar (by simp [noPar, ih h1])
  | func f idx =>
    simp only [genD, bind, Except.bind] at h
    cases h0 : fncName args f with
    | error e => simp [h0] at h
    | ok x =>
      cases h1 : genIs idx n with
      | error e => simp [h0, h1] at h
      | ok p =>
        obtain ⟨s1, k1, n1⟩ := p
        simp only [h0, h1] at h
        split at h
        · cases h
        · simp only [pure, Except.pure, Except.ok.injEq, Prod.mk.injEq] at h
          obtain ⟨rfl, rfl, rfl⟩ := h
          exact genIs_noPar h1
  | buf f idx =>
    simp only [genD, bind, Except.bind] at h
    cases h0 : bufName args f with
    | error e => simp [h0] at h
    | ok x =>
      cases h1 : genIs idx n with
      | error e => simp [h0, h1] at h
      | ok p =>
        obtain ⟨s1, k1, n1⟩ := p
        simp only [h0, h1, pure, Except.pure, Except.ok.injEq, Prod.mk.injEq] at h
        obtain ⟨rfl, rfl, rfl⟩ := h
        exact genIs_noPar h1

/-! ### one output element -/

/-- Arguments of a kernel. -/
def argsOf (F : Func) : Args := ⟨(Algo.args F.expr).1, (Algo.args F.expr).2⟩

/-- Everything a function refers to is known. -/
def RefsOK (g : Graph V) (t : Tbl) (F : Func) : Prop := ∀ d ∈ funcRefs F.expr, ∃ D, t d = some D ∧ D.outShape = g.shape d

theorem argsOK_of {g : Graph V} {t : Tbl} {F : Func} (h : RefsOK g t F) : KArgsOK g t (argsOf F) F.expr :=
  ⟨fun f hf => ⟨mem_dedup.2 hf, h f hf⟩, fun _ hb => mem_dedup.2 hb⟩

theorem outEnv_red {g : Graph V} {a : Nat} {idx : List Int} {l : LoopIndex} (h : l.red = true) : outEnv g a idx l = none := by
  unfold outEnv
  rw [bind_not_mem (fun hl => by rw [(mem_outLoops hl).2] at h; cases h)]
  rfl

/-- The variables `(loop false k)` hold `idx`. -/
def IdxEnv (g : Graph V) (a : Nat) (idx : List Int) (σ : KEnv V) : Prop := ∀ k < g.ndim a, σ (.loop false k) = some (.I (geti idx k))

theorem IdxEnv.bound {g : Graph V} {a : Nat} {idx : List Int} {σ : KEnv V} (h : IdxEnv g a idx σ) (hl : idx.length = g.ndim a) :
    Bound (outLoops g a) (outEnv g a idx) σ := by
  intro l hlm v hv
  obtain ⟨k, hk, rfl⟩ := List.mem_iff_getElem.1 hlm
  rw [outEnv_getElem hl hk, Option.some.injEq] at hv
  subst hv
  rw [outLoops_getElem]
  exact h k (by simpa [outLoops_length] using hk)

/-- Variables that are declared inside the computation of an element. -/
def Clean (n : Nat) (σ : KEnv V) : Prop := FreshFrom n σ ∧ σ .acc = none ∧ ∀ p, σ (.loop true p) = none

theorem evalKIs_outLoops {g : Graph V} {a : Nat} {idx : List Int} {σ : KEnv V} {ar : IntArith} (h : IdxEnv g a idx σ) (hl : idx.length = g.ndim a) :
    evalKIs ar σ ((outLoops g a).map (fun l => KI.var l.name)) = some idx := by
  have key : ∀ (ls : List LoopIndex) (vs : List Int), ls.length = vs.length → (∀ k (hk : k < ls.length), σ (ls[k]).name = some (.I (geti vs k))) →
      evalKIs ar σ (ls.map (fun l => KI.var l.name)) = some vs := by
    intro ls
    induction ls with
    | nil => intro vs hl _; have := List.eq_nil_of_length_eq_zero hl.symm; subst this; rfl
    | cons l ls ih =>
      intro vs hl hσ
      cases vs with
      | nil => simp at hl
      | cons v vs =>
        have h0 := hσ 0 (by simp)
        simp only [List.getElem_cons_zero, geti_cons_zero] at h0
        have := ih vs (by simpa using hl) (fun k hk => by
          have := hσ (k+1) (by simpa using hk)
          simpa using this)
        simp [evalKIs, evalKI, h0, this]
  apply key
  · rw [outLoops_length, hl]
  · intro k hk
    rw [outLoops_getElem]
    exact h k (by simpa [outLoops_length] using hk)

/-- Computing and storing one element. -/
theorem elem_ok {g : Graph V} {t : Tbl} {F : Func} {m : Machine V} {a : Nat} {idx : List Int} {n n' : Nat} {s : Stmt} {k : KD} {σ : KEnv V}
    (hwf : WF g) (hE : EntryOK g a F) (hr : RefsOK g t F) (hm : MemOK g (argsOf F) m (denRd m.A g)) (hlen : (m.outLen : Int) = prod (g.shape a))
    (hg : genD g t (argsOf F) F.outDtype F.expr n = .ok (s, k, n')) (hv : ValidIdx (g.shape a) idx) (hi : IdxEnv g a idx σ) (hc : Clean n σ)
    (hfit : Fit (room (g.shape a)) := by exact fit_none) :
    NestOK m (.seq s (.store (flatIdx F.outShape (F.outLoops.map (fun l => KI.var l.name))) k)) σ [(ravel (g.shape a) idx, (den m.A g a).get idx)] := by
  have hl : idx.length = g.ndim a := hv.length
  have hstr : ∀ b, g.ctx b = .const → b < g.length → (g.strides b).length = g.ndim b := by
    intro b hb hlt
    have := hwf b hlt
    unfold NodeOK at this
    have hb' : (g.nd b).ctx = .const := hb
    rw [hb'] at this
    obtain ⟨_, _, _, _, h, _⟩ := this
    show (g.nd b).strides.length = (g.nd b).shape.length
    rw [h]; simp
  obtain ⟨σ', e, hle, hk⟩ := genRoot_exec hstr hE.wf (argsOK_of hr) hm hg (hE.sem m.A idx hv) (hi.bound hl) (fun l h => outEnv_red h) hc.1 hc.2.1 hc.2.2
  have hidx : evalKI m.ar σ' (flatIdx F.outShape (F.outLoops.map (fun l => KI.var l.name))) = some (ravel (g.shape a) idx) := by
    rw [hE.shape, hE.loops]
    exact evalKI_le hle (flatIdx_eval hm.lim (evalKIs_outLoops hi hl) hv hfit)
  have hb := ravel_bounds hv
  apply NestOK.det (σ' := σ') (by simp [noPar, genD_noPar hg]) _ hle
  simp only [exec, e, hidx, hk, Option.bind_eq_bind, Option.bind_some, Bool.false_eq_true, if_false]
  rw [if_pos ⟨hb.1, by rw [hlen]; exact hb.2⟩]
  simp [pure]

theorem NestOK.skip_seq {m : Machine V} {s : Stmt} {σ : KEnv V} {ws : List (Int × V)} (h : NestOK m s σ ws) : NestOK m (.seq .skip s) σ ws := by
  obtain ⟨σ', e, hl⟩ := h.seq
  refine ⟨⟨σ', by simp [exec, e], hl⟩, fun r hr => ?_, ?_⟩
  · simp only [Kern.par, exec, andThen] at hr
    obtain ⟨o, rfl, o2, h2, h3⟩ := hr
    obtain ⟨σ', ws', rfl, hl', hp⟩ := h.par o2 h2
    exact ⟨σ', ws', by simpa using h3, hl', hp⟩
  · obtain ⟨o, ho⟩ := h.ex
    obtain ⟨σ', ws', rfl, hl', hp⟩ := h.par o ho
    refine ⟨some ⟨σ', ws', false⟩, ?_⟩
    simp only [Kern.par, exec, andThen]
    exact ⟨_, rfl, _, ho, by simp⟩

/-! ### environments of the spatial loops -/

theorem binds_not_mem {ns : List VName} {vs : List Int} {σ : KEnv V} {y : VName} (h : y ∉ ns) : σ.binds ns vs y = σ y := by
  induction ns generalizing vs σ with
  | nil => simp [KEnv.binds]
  | cons n ns ih =>
    simp only [List.mem_cons, not_or] at h
    cases vs with
    | nil => simp [KEnv.binds]
    | cons v vs => rw [KEnv.binds, ih h.2, set_ne _ _ h.1]

theorem binds_getElem {ns : List VName} {vs : List Int} {σ : KEnv V} (hn : ns.Nodup) (hl : ns.length = vs.length) {k : Nat} (hk : k < ns.length) :
    σ.binds ns vs ns[k] = some (.I (geti vs k)) := by
  induction ns generalizing vs σ k with
  | nil => simp at hk
  | cons n ns ih =>
    rw [List.nodup_cons] at hn
    cases vs with
    | nil => simp at hl
    | cons v vs =>
      cases k with
      | zero => simp only [List.getElem_cons_zero, KEnv.binds, geti_cons_zero]; rw [binds_not_mem hn.1, set_same]
      | succ k => simp only [List.getElem_cons_succ, KEnv.binds, geti_cons_succ]; exact ih hn.2 (by simpa using hl) (by simpa using hk)

/-! ### the CPU schedule -/

theorem index_ok {s : Schedule} {lv : LoopVar} (h : ∃ l ∈ s.loops, l.lv.name = lv.name) : ∃ i, Sched.index s lv = .ok i ∧ i < s.loops.length ∧
    (s.loops.getD i default).lv.name = lv.name := by
  unfold Sched.index
  cases hf : s.loops.findIdx? (fun l => l.lv.name == lv.name) with
  | none =>
    rw [List.findIdx?_eq_none_iff] at hf
    obtain ⟨l, hl, e⟩ := h
    have := hf l hl
    simp [e] at this
  | some i =>
    rw [List.findIdx?_eq_some_iff_getElem] at hf
    obtain ⟨hi, hp, _⟩ := hf
    refine ⟨i, rfl, hi, ?_⟩
    simpa [List.getD_eq_getElem?_getD, hi] using hp

theorem setExec_ok {s : Schedule} {lv : LoopVar} {e : LoopExec} (h : ∃ l ∈ s.loops, l.lv.name = lv.name) (he : cpuMode e = true)
    (hc : ∀ l ∈ s.loops, cpuMode l.exec = true) :
    ∃ s', Sched.setExec s lv e = .ok s' ∧ s'.splits = s.splits ∧ s'.loops.map (fun l => (l.lv, l.kind)) = s.loops.map (fun l => (l.lv, l.kind)) ∧
      ∀ l ∈ s'.loops, cpuMode l.exec = true := by
  obtain ⟨i, hi, hlt, hn⟩ := index_ok h
  refine ⟨{ s with loops := s.loops.set i { s.loops.getD i default with exec := e } },
    by simp only [Sched.setExec, hi, bind, Except.bind, pure, Except.pure], rfl, ?_, ?_⟩
  · apply List.ext_getElem (by simp)
    intro k h1 h2
    simp only [List.getElem_map, List.getElem_set]
    split
    · rename_i hk
      subst hk
      simp [List.getD_eq_getElem?_getD, hlt]
    · rfl
  · intro l hl
    rcases List.mem_or_eq_of_mem_set hl with h | h
    · exact hc l h
    · rw [h]; exact he

theorem cpu_ok {s : Schedule} (hc : ∀ l ∈ s.loops, cpuMode l.exec = true) :
    ∃ s', Sched.cpu s = .ok s' ∧ s'.splits = s.splits ∧ s'.loops.map (fun l => (l.lv, l.kind)) = s.loops.map (fun l => (l.lv, l.kind)) ∧
      ∀ l ∈ s'.loops, cpuMode l.exec = true := by
  have hsp : ∀ lv ∈ Sched.spatials s, ∃ l ∈ s.loops, l.lv.name = lv.name := by
    intro lv hlv
    simp only [Sched.spatials, List.mem_map, List.mem_filter] at hlv
    obtain ⟨l, ⟨hl, _⟩, rfl⟩ := hlv
    exact ⟨l, hl, rfl⟩
  have h2 : ∀ s1 : Schedule, s1.splits = s.splits → s1.loops.map (fun l => (l.lv, l.kind)) = s.loops.map (fun l => (l.lv, l.kind)) →
      (∀ l ∈ s1.loops, cpuMode l.exec = true) →
      ∃ s', (if 1 < (Sched.spatials s).length then
          match (Sched.spatials s).getLast? with
          | some lv => Sched.setExec s1 lv .vectorize
          | none => pure s1
        else pure s1) = .ok s' ∧ s'.splits = s.splits ∧ s'.loops.map (fun l => (l.lv, l.kind)) = s.loops.map (fun l => (l.lv, l.kind)) ∧
      ∀ l ∈ s'.loops, cpuMode l.exec = true := by
    intro s1 p1 m1 c1
    have hsp1 : ∀ lv ∈ Sched.spatials s, ∃ l ∈ s1.loops, l.lv.name = lv.name := by
      intro lv hlv
      obtain ⟨l, hl, e⟩ := hsp lv hlv
      have : (l.lv, l.kind) ∈ s1.loops.map (fun l => (l.lv, l.kind)) := by rw [m1]; exact List.mem_map.2 ⟨l, hl, rfl⟩
      obtain ⟨l', hl', e'⟩ := List.mem_map.1 this
      simp only [Prod.mk.injEq] at e'
      exact ⟨l', hl', by rw [e'.1, e]⟩
    split
    · cases hh : (Sched.spatials s).getLast? with
      | none => exact ⟨s1, rfl, p1, m1, c1⟩
      | some lv =>
        obtain ⟨s2, e2, p2, m2, c2⟩ := setExec_ok (e := .vectorize) (hsp1 lv (List.mem_of_getLast? hh)) rfl c1
        exact ⟨s2, e2, p2.trans p1, m2.trans m1, c2⟩
    · exact ⟨s1, rfl, p1, m1, c1⟩
  cases hh : (Sched.spatials s).head? with
  | none =>
    obtain ⟨s', e, r⟩ := h2 s rfl rfl hc
    refine ⟨s', ?_, r⟩
    simp only [Sched.cpu, hh, bind, Except.bind, pure, Except.pure]
    exact e
  | some lv =>
    obtain ⟨s1, e1, p1, m1, c1⟩ := setExec_ok (e := .parallel) (hsp lv (List.mem_of_mem_head? hh)) rfl hc
    obtain ⟨s', e, r⟩ := h2 s1 p1 m1 c1
    refine ⟨s', ?_, r⟩
    simp only [Sched.cpu, hh, e1, bind, Except.bind]
    exact e

/-- The loops of a CPU schedule. -/
theorem cpu_loops {F : Func} : ∃ sch sp rd, Sched.cpu (Sched.init F) = .ok sch ∧ sch.splits = [] ∧ sch.loops = sp ++ rd ∧
    (∀ l ∈ sp, l.kind = .spatial ∧ cpuMode l.exec = true) ∧ (∀ l ∈ rd, l.kind = .reduce) ∧
    sp.map (·.lv) = F.outLoops.map (fun l => ⟨l.name, l.extent⟩) := by
  obtain ⟨sch, e, p, hm, hc⟩ := cpu_ok (s := Sched.init F) (by
    intro l hl
    simp only [Sched.init, List.mem_append, List.mem_map] at hl
    rcases hl with ⟨_, _, rfl⟩ | ⟨_, _, rfl⟩ <;> rfl)
  simp only [Sched.init, List.map_append, List.map_map] at hm
  obtain ⟨sp, rd, e1, e2, e3⟩ := List.map_eq_append_iff.1 hm
  refine ⟨sch, sp, rd, e, p, e1, ?_, ?_, ?_⟩
  · intro l hl
    refine ⟨?_, hc l (by rw [e1]; exact List.mem_append_left _ hl)⟩
    have : (l.lv, l.kind) ∈ sp.map (fun l => (l.lv, l.kind)) := List.mem_map.2 ⟨l, hl, rfl⟩
    rw [e2] at this
    simp only [List.mem_map, Function.comp_apply, Prod.mk.injEq] at this
    obtain ⟨_, _, _, h⟩ := this
    exact h.symm
  · intro l hl
    have : (l.lv, l.kind) ∈ rd.map (fun l => (l.lv, l.kind)) := List.mem_map.2 ⟨l, hl, rfl⟩
    rw [e3] at this
    simp only [List.mem_map, Function.comp_apply, Prod.mk.injEq] at this
    obtain ⟨_, _, _, h⟩ := this
    exact h.symm
  · have := congrArg (List.map Prod.fst) e2
    simpa [List.map_map, Function.comp_def] using this

/-! ### the whole kernel -/

/-- The stores a kernel for array `a` has to perform. -/
def storesOf (A : Scalar V) (g : Graph V) (a : Nat) : List (Int × V) :=
  (indices (g.shape a)).map fun idx => (ravel (g.shape a) idx, (den A g a).get idx)

theorem outLoops_names (g : Graph V) (a : Nat) : (outLoops g a).map (·.name) = (List.range (g.ndim a)).map (VName.loop false) := by
  apply List.ext_getElem (by simp [outLoops_length])
  intro k h1 h2
  simp only [List.getElem_map, List.getElem_range]
  rw [outLoops_getElem]
  rfl

theorem outLoops_extents (g : Graph V) (a : Nat) : (outLoops g a).map (·.extent) = g.shape a := by
  apply ext_geti (by simp [outLoops_length, Graph.ndim])
  intro k hk
  rw [geti_eq_getElem hk]
  simp only [List.getElem_map]
  rw [outLoops_getElem]

theorem loopNames_nodup (n : Nat) : ((List.range n).map (VName.loop false)).Nodup := by
  unfold List.Nodup
  rw [List.pairwise_map]
  exact List.nodup_range.imp (fun h e => h (by simpa using e))

theorem kernel_cpu {g : Graph V} {t : Tbl} {F : Func} {m : Machine V} {a : Nat} (hwf : WF g) (hE : EntryOK g a F) (hr : RefsOK g t F)
    (hm : MemOK g (argsOf F) m (denRd m.A g)) (hlen : (m.outLen : Int) = prod (g.shape a)) (n : Nat)
    (hfit : Fit (room (g.shape a)) := by exact fit_none) :
    ∃ sch K n', Sched.schedule false F = .ok sch ∧ codegen g t F sch (argsOf F) n = .ok (K, n') ∧ n ≤ n' ∧
      NestOK m K.body (fun _ => none) (storesOf m.A g a) := by
  obtain ⟨sch, sp, rd, e1, e2, e3, h1, h2, h3⟩ := cpu_loops (F := F)
  obtain ⟨s, k, n', hg, hn⟩ := genRoot_gen (dt := F.outDtype) hE.wf (argsOK_of hr) n
  refine ⟨sch, _, n', by simpa [Sched.schedule] using e1, by simp only [codegen, hg, bind, Except.bind, pure, Except.pure]; rfl, hn, ?_⟩
  simp only [e2, e3, splitInits, splitGuards]
  rw [genLoops_reduce h2]
  have hnames : sp.map (·.lv.name) = (List.range (g.ndim a)).map (VName.loop false) := by
    rw [← outLoops_names, ← hE.loops]
    have := congrArg (List.map LoopVar.name) h3
    simpa [List.map_map, Function.comp_def] using this
  have hext : sp.map (·.lv.extent) = g.shape a := by
    rw [← outLoops_extents, ← hE.loops]
    have := congrArg (List.map LoopVar.extent) h3
    simpa [List.map_map, Function.comp_def] using this
  have := genLoops_ok (m := m) (body := .seq .skip (.seq .skip (.seq s (.store (flatIdx F.outShape (F.outLoops.map fun l => KI.var l.name)) k))))
    sp (fun _ => none) (fun idx => (ravel (g.shape a) idx, (den m.A g a).get idx)) h1 (by rw [hnames]; exact loopNames_nodup _) (fun _ _ => rfl) (by
      intro v hv
      rw [hext, mem_indices] at hv
      rw [hnames]
      refine NestOK.skip_seq (NestOK.skip_seq (elem_ok hwf hE hr hm hlen hg hv ?_ ⟨?_, ?_, ?_⟩ hfit))
      · intro j hj
        have := binds_getElem (σ := fun _ => (none : Option (Val V))) (ns := (List.range (g.ndim a)).map (VName.loop false)) (vs := v) (loopNames_nodup _)
          (by simp [hv.length, Graph.ndim]) (k := j) (by simpa using hj)
        simpa using this
      · intro j _; rw [binds_not_mem (by simp)]
      · rw [binds_not_mem (by simp)]
      · intro p; rw [binds_not_mem (by simp)])
  rw [hext] at this
  exact this

end Whale
