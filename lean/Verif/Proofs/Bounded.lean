import Verif.Proofs.Lits
import Verif.Proofs.Strict
/-
C49: the index arithmetic of a kernel stays within the limit.
-/
namespace Whale
open Algo Codegen Kern Mat Sem
variable {V : Type} [Lim]

theorem Generates.fits {isGpu : Bool} {g : Graph V} (h : WF g) (hnn : ∀ i < g.length, NonNeg (g.shape i)) {a f : Nat} {ins : List Nat} {sch : Schedule} {K : Kernel} (ha : Computed g a)
    (hns : NoScalarReshape g a) (hG : Generates isGpu g a f ins sch K) (hS : Small g a) :
    ∃ t F n n', f < g.length ∧ EntryOK g f F ∧ RefsOK g t F ∧ ins = (argsOf F).bufs ++ (argsOf F).fncs ∧ Sched.schedule isGpu F = .ok sch ∧
      codegen g t F sch (argsOf F) n = .ok (K, n') ∧ F.expr.fit g ∧ (∀ i ∈ ins, Fit (room (g.shape i))) ∧ Fit (room (g.shape f)) := by
  obtain ⟨ha, hv, hc⟩ := ha
  obtain ⟨funcs, t, F, n, n', e, hf, hF, rfl, hs, hK⟩ := hG
  obtain ⟨funcs', t', e', hnd, hpre, hord, htg, hr⟩ := convert_good h ha hns hv hc hS
  have hfit := convert_fit h hnn ha hns hS e
  have hrefs := convert_refs h ha hns e
  rw [e] at e'; cases e'
  obtain ⟨_, hfc, F', hF', hE, hds⟩ := htg.entry f hf
  rw [hF] at hF'; cases hF'
  refine ⟨t, F, n, n', hE.lt, hE, ?_, rfl, hs, hK, hfit f F hF, ?_, hS.room (hr f hf)⟩
  · intro d hd
    obtain ⟨_, _, D, hD, hED, _⟩ := htg.entry d (hds d hd).1
    exact ⟨D, hD, hED.shape⟩
  · intro i hi
    refine hS.room ((hr f hf).trans (hrefs f F hF i (mem_refs.2 ?_)))
    rcases List.mem_append.1 hi with hi | hi
    · exact .inr (mem_dedup.1 hi)
    · exact .inl (mem_dedup.1 hi)

omit [Lim] in
theorem ceilDiv_le {z : Int} (h : 0 ≤ z) : 0 ≤ Sched.ceilDiv z 256 ∧ Sched.ceilDiv z 256 ≤ z := by
  unfold Sched.ceilDiv
  omega

omit [Lim] in
theorem launchDim_fit {P : Int → Prop} (h1 : P 1) {ls : List LoopSched} (hl : ∀ l ∈ ls, P l.lv.extent) (th : Bool) (d : Dim3) {n : Int} (hn : P n) : P (ls.foldl (dimStep th d) n) := by
  induction ls generalizing n with
  | nil => exact hn
  | cons l ls ih =>
    refine ih (fun x hx => hl x (List.mem_cons_of_mem _ hx)) ?_
    have := hl l List.mem_cons_self
    unfold dimStep
    split
    · split
      · exact this
      · exact hn
    · split
      · exact this
      · exact hn
    · exact hn

omit [Lim] in
theorem mem_threads {sch : Schedule} {t : Thread} (h : t ∈ threads sch) (th : Bool) (d : Dim3) : 0 ≤ (if th then t.thread d else t.block d) ∧ (if th then t.thread d else t.block d) < launchDim sch th d := by
  simp only [threads, List.mem_flatMap, List.mem_map, mem_irange] at h
  obtain ⟨bx, h1, bY, h2, bz, h3, tx, h4, ty, h5, tz, h6, rfl⟩ := h
  cases th <;> cases d <;> assumption

/-- The loop bounds of the automatic schedules. -/
theorem schedule_fit {isGpu : Bool} {g : Graph V} {f : Nat} {F : Func} (hE : EntryOK g f F) (hnn : NonNeg (g.shape f)) {sch : Schedule} (hs : Sched.schedule isGpu F = .ok sch)
    (hf : Fit (room (g.shape f) + if isGpu then 255 else 0)) :
    (∀ l ∈ sch.loops, l.kind = .spatial → Fit l.lv.extent) ∧ (∀ p ∈ sch.splits, Fit p.factor ∧ Fit p.orig.extent) ∧
      (isGpu = true → ∀ t ∈ threads sch, ∀ (th : Bool) d, Fit (if th then t.thread d else t.block d)) := by
  have hr1 := room_ge_one (g.shape f)
  have hf' : Fit (room (g.shape f)) := hf.of_le (by omega) (by split <;> omega)
  have hol : ∀ l ∈ F.outLoops, Fit l.extent ∧ 0 ≤ l.extent := by
    intro l hl
    have : l.extent ∈ g.shape f := by
      rw [← outLoops_extents g f, ← hE.loops]
      exact List.mem_map_of_mem hl
    exact ⟨hf'.dim this, hnn _ this⟩
  cases isGpu with
  | false =>
    obtain ⟨sch', sp, rd, e1, e2, e3, h1, h2, h3⟩ := cpu_loops (F := F)
    simp only [Sched.schedule, Bool.false_eq_true, if_false] at hs
    rw [e1] at hs; cases hs
    refine ⟨?_, (by rw [e2]; intro p hp; cases hp), fun h => by cases h⟩
    intro l hl hk
    rw [e3] at hl
    rcases List.mem_append.1 hl with hl | hl
    · have : l.lv ∈ sp.map (·.lv) := List.mem_map_of_mem hl
      rw [h3] at this
      obtain ⟨x, hx, e⟩ := List.mem_map.1 this
      rw [← e]
      exact (hol x hx).1
    · rw [h2 l hl] at hk; cases hk
  | true =>
    simp only [if_true] at hf
    have h256 : Fit 256 := hf.of_le (by omega) (by omega)
    have h1 : Fit 1 := hf.of_le (by omega) (by omega)
    simp only [Sched.schedule, if_true] at hs
    by_cases h0 : F.outLoops.length = 0
    · have hnil : F.outLoops = [] := List.eq_nil_of_length_eq_zero h0
      have : Sched.gpu (Sched.init F) = .ok (Sched.init F) := by simp [Sched.gpu, spatials_init, hnil, pure, Except.pure]
      rw [this] at hs; cases hs
      have hred : ∀ l ∈ (Sched.init F).loops, l.kind = .reduce ∧ l.exec = .sequential := by
        intro l hl
        simp only [Sched.init, hnil, List.map_nil, List.nil_append, List.mem_map] at hl
        obtain ⟨_, _, rfl⟩ := hl
        exact ⟨rfl, rfl⟩
      refine ⟨?_, ?_, ?_⟩
      · intro l hl hk
        rw [(hred l hl).1] at hk; cases hk
      · intro p hp; simp [Sched.init] at hp
      · intro _ t ht th d
        have := mem_threads ht th d
        rw [launchDim, launchDim_seq fun l hl => (hred l hl).2] at this
        exact h1.of_le this.1 (by omega)
    · have hnames : F.outLoops.map (·.name) = (List.range (g.ndim f)).map (VName.loop false) := by rw [hE.loops, outLoops_names]
      obtain ⟨sch', vs, z, pre, rd, d, hsch, hF⟩ := gpu_form (F := F) h0 (by rw [hnames]; exact loopNames_nodup _) (by
        rw [hE.loops]; intro l hl; exact (mem_outLoops hl).2)
      rw [hsch] at hs; cases hs
      have hv : ∀ v ∈ vs ++ [z], Fit v.extent ∧ 0 ≤ v.extent := by
        intro v hv
        rw [← hF.out] at hv
        obtain ⟨l, hl, rfl⟩ := List.mem_map.1 hv
        exact hol l hl
      have hz := hv z (by simp)
      have hsp : ∀ l ∈ pre ++ splitLoops z d, Fit l.lv.extent := by
        intro l hl
        rcases List.mem_append.1 hl with hl | hl
        · have : l.lv ∈ pre.map (·.lv) := List.mem_map_of_mem hl
          rw [hF.lvs] at this
          exact (hv _ (List.mem_append_left _ this)).1
        · simp only [splitLoops, List.mem_cons, List.not_mem_nil, or_false] at hl
          rcases hl with rfl | rfl
          · exact hz.1.of_le (ceilDiv_le hz.2).1 (ceilDiv_le hz.2).2
          · exact h256
      refine ⟨?_, ?_, ?_⟩
      · intro l hl hk
        rw [hF.loops, ← List.append_assoc] at hl
        rcases List.mem_append.1 hl with hl | hl
        · exact hsp l hl
        · rw [hF.red l hl] at hk; cases hk
      · rw [hF.splits]
        intro p hp
        simp only [List.mem_singleton] at hp
        subst hp
        exact ⟨h256, hz.1⟩
      · intro _ t ht th d'
        have := mem_threads ht th d'
        have hrd : ∀ n, rd.foldl (dimStep th d') n = n := fun n => launchDim_seq hF.redSeq
        have h2 : Fit (launchDim sch th d') := by
          rw [launchDim, hF.loops, ← List.append_assoc, List.foldl_append, hrd]
          exact launchDim_fit h1 hsp th d' h1
        exact h2.of_le this.1 (by omega)

end Whale
