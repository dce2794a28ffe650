import Verif.Proofs.Refused
import Verif.Props.Crash
import Verif.Props.Stale
/-
C66: going on after `materialize` has raised because of a kernel of another backend (or for any other reason).
-/
namespace Whale.Props
open Whale Mat Hist
variable {V : Type}

theorem stepS_tolist_cpu {s : Sess V} (hg : s.b.isGpu = false) {a : Nat} {o : Out V} {s' : Sess V} (h : Stale.step s (.tolist a) = .ok (o, s')) :
    a < s.w.g.length ∧ step s.b s.w (.tolist a) = .ok (o, s.w) ∧ s' = s ∧ (cpuBuf s.w (base s.w.g a)).isSome := by
  rw [stepS_tolist] at h
  cases hs : step s.b s.w (.tolist a) with
  | error e => rw [hs] at h; cases h
  | ok p =>
    obtain ⟨o', w'⟩ := p
    rw [hs] at h
    cases h
    have ha : a < s.w.g.length := by
      unfold step at hs
      split at hs
      · rename_i hin; exact hin a (by simp [Call.arrays])
      · cases hs
    have hs' := hs
    rw [step_eq (by simpa [Call.arrays] using ha)] at hs'
    simp only [exec1] at hs'
    cases ht : tolist s.b s.w a with
    | error e => rw [ht] at hs'; cases hs'
    | ok q =>
      obtain ⟨hw, data, hd⟩ := tolist_cpu hg ht
      rw [ht] at hs'
      cases hs'
      rw [hw]
      exact ⟨ha, rfl, rfl, by rw [hd]; rfl⟩

theorem stepS_tolist_ok {s : Sess V} {D : List Nat} (hi : RInv s D) {a : Nat} (ha : a < s.w.g.length) (hD : base s.w.g a ∉ D) (hno : NoOffsetReshape s.w.g a) (hav : (cpuBuf s.w (base s.w.g a)).isSome) :
    Stale.step s (.tolist a) = .ok (.list (value s.b s.w a).toNested, s) := by
  rw [stepS_tolist, step_eq (by simpa [Call.arrays] using ha)]
  simp only [exec1]
  rw [tolistX hi.inv ha hD hno hav]; rfl

/-- C66: what a refused `materialize` leaves behind.  It raises; the program can go on in the session `Stale.left` computes, with at most one more array whose data are incomplete. -/
theorem C66_refused {s : Sess V} {D : List Nat} (hr : ReachableR s D) {a : Nat} (ha : a < s.w.g.length) (hargs : ArgsOK s.b s.w (.materialize a)) (h : HitsForeign s a) :
    Stale.step s (.materialize a) = .error .typeError ∧ ∃ f s', Stale.left (a + 1) s a = some (f, s') ∧ RunsR s D s' (spoiled s.w D (some f)) := by
  have hi := hr.inv
  rcases materializeSX hi.fits hi.cpu hi.inv.inv.winv hi.inv.dirty hi.tags ha hargs.1 hargs.2.1 with ⟨_, e, f, s', hl, hI⟩ | ⟨hn, _⟩
  · exact ⟨by rw [stepS_materialize ha, e]; rfl, f, s', hl, .crash .refl ha hargs hI⟩
  · exact absurd h hn

/-- C66: no array is changed (shape, dtype, value) by anything such a program does. -/
theorem C66_keeps {s s' : Sess V} {D D' : List Nat} (hr : ReachableR s D) (hrun : RunsR s D s' D') {a : Nat} (ha : a < s.w.g.length) :
    a < s'.w.g.length ∧ s'.w.g.shape a = s.w.g.shape a ∧ s'.w.g.dtype a = s.w.g.dtype a ∧ value s'.b s'.w a = value s.b s.w a := by
  obtain ⟨hi, hA, hl⟩ := hrun.later hr.inv
  refine ⟨Nat.lt_of_lt_of_le ha hl.ext.length, hl.ext.shape ha, by unfold Graph.dtype; rw [hl.ext.nd ha], ?_⟩
  unfold value
  rw [hA]
  exact den_ext s.b.A hl.ext hi.inv.inv.winv.wf ha

/-- C66, the part that holds: an array whose own computation was not refused or interrupted is never read back wrongly. -/
theorem C66_safe_partial {s : Sess V} {D : List Nat} (hr : ReachableR s D) {a : Nat} (hD : base s.w.g a ∉ D) (hno : NoOffsetReshape s.w.g a) {o : Out V} {s' : Sess V}
    (h : Stale.step s (.tolist a) = .ok (o, s')) : o = .list (value s.b s.w a).toNested ∧ s' = s := by
  have hi := hr.inv
  obtain ⟨ha, hs, rfl, hav⟩ := stepS_tolist_cpu hi.cpu h
  rw [stepS_tolist_ok hi ha hD hno hav] at h
  cases h
  exact ⟨rfl, rfl⟩

/-- C66: the others are read back without exception as lists in which every element is right or 0. -/
theorem C66_incomplete {s : Sess V} {D : List Nat} (hr : ReachableR s D) {a : Nat} (hD : base s.w.g a ∈ D) (hno : NoOffsetReshape s.w.g a) {o : Out V} {s' : Sess V}
    (h : Stale.step s (.tolist a) = .ok (o, s')) : s' = s ∧ ∃ l, o = .list l ∧ RelatedLists (fun x y => x = y ∨ x = s.b.A.host 0) l (value s.b s.w a).toNested := by
  have hi := hr.inv
  obtain ⟨ha, hs, rfl, hav⟩ := stepS_tolist_cpu hi.cpu h
  refine ⟨rfl, ?_⟩
  have hwf : WF s'.w.g := hi.inv.inv.winv.wf
  have hbl := Nat.lt_of_le_of_lt (base_le hwf ha) ha
  rw [step_eq (by simpa [Call.arrays] using ha)] at hs
  simp only [exec1] at hs
  cases ht : tolist s'.b s'.w a with
  | error e => rw [ht] at hs; cases hs
  | ok p =>
    obtain ⟨hw, data, hd⟩ := tolist_cpu hi.cpu ht
    rw [ht] at hs
    have ho : o = .list p.1 := by
      injection hs with hs
      injection hs with h1 h2
      exact h1.symm
    refine ⟨p.1, ho, ?_⟩
    have hcpu : s'.w.cpu (base s'.w.g a) = some data := by
      unfold cpuBuf at hd
      rwa [nonconst_val hwf hbl (hi.inv.dirty.nonconst _ hD), Option.or_none] at hd
    have hp := hi.inv.dirty.part _ hD _ hcpu
    have hf : List.Forall₂ (fun x y => x = y ∨ x = s'.b.A.host 0) data (den s'.b.A s'.w.g (base s'.w.g a)).flatten := by
      rw [List.forall₂_iff_get]
      refine ⟨hp.1, fun k h1 h2 => ?_⟩
      rcases hp.2 k _ (List.getElem?_eq_getElem h1) with h | h
      · rw [List.getElem?_eq_getElem h2] at h
        exact .inl (Option.some.inj h).symm
      · exact .inr h
    unfold tolist ensureCpu at ht
    simp only [hd, bind, Except.bind] at ht
    cases hl : ND.toNdlist data (s'.w.g.shape a) (s'.w.g.strides a) (s'.w.g.offset a) with
    | error e => rw [hl] at ht; cases ht
    | ok l =>
      rw [hl] at ht
      cases ht
      exact toNdlist_rel hf _ _ _ hl (toNdlist_den s'.b.A hwf ha hno)

/-- C66: an array that could be read can still be read after further calls, switches, refusals and interruptions, with the same result. -/
theorem C66_stays {s s' : Sess V} {D D' : List Nat} (hr : ReachableR s D) {a : Nat} (hD : base s.w.g a ∉ D) (hno : NoOffsetReshape s.w.g a) {o : Out V} {s1 : Sess V}
    (h : Stale.step s (.tolist a) = .ok (o, s1)) (hrun : RunsR s D s' D') : base s.w.g a ∉ D' ∧ Stale.step s' (.tolist a) = .ok (o, s') := by
  have hi := hr.inv
  obtain ⟨ha, _, _, hav⟩ := stepS_tolist_cpu hi.cpu h
  obtain ⟨rfl, _⟩ := C66_safe_partial hr hD hno h
  have hwf : WF s.w.g := hi.inv.inv.winv.wf
  have hbl := Nat.lt_of_le_of_lt (base_le hwf ha) ha
  have hD2 : base s.w.g a ∉ D' := by
    clear h
    induction hrun with
    | refl => exact hD
    | @call s1 s' D1 c h1 _ _ ih =>
      intro hm
      cases c <;> first | exact ih hm | exact ih (mem_without.1 hm).1
    | stopped _ _ _ _ ih => exact ih
    | @crash s1 s' D1 a' d h1 _ _ _ ih =>
      intro hm
      have hav1 : (cpuBuf s1.w (base s.w.g a)).isSome := by
        obtain ⟨_, _, l1⟩ := h1.later hi
        exact cpuBuf_mono (l1.ext.nd hbl) (l1.mono _) hav
      cases d with
      | none => exact ih hm
      | some f =>
        simp only [spoiled] at hm
        split at hm
        · exact ih hm
        · rename_i hn
          rcases List.mem_cons.1 hm with e | hm
          · rw [← e] at hn; exact hn hav1
          · exact ih hm
    | switch _ _ _ _ ih => exact ih
  obtain ⟨h2, hA, l2⟩ := hrun.later hi
  have ha2 : a < s'.w.g.length := Nat.lt_of_lt_of_le ha l2.ext.length
  have hbase : base s'.w.g a = base s.w.g a := base_ext l2.ext hwf ha
  refine ⟨hD2, ?_⟩
  rw [stepS_tolist_ok h2 ha2 (by rw [hbase]; exact hD2) (hno.ext l2.ext hwf ha) (by rw [hbase]; exact cpuBuf_mono (l2.ext.nd hbl) (l2.mono _) hav)]
  unfold value
  rw [hA, den_ext s.b.A l2.ext h2.inv.inv.winv.wf ha]

/-- C66: a `materialize` that does not find a refused kernel returns, whatever raised before, and from then on, whatever is called, switched, refused or interrupted, the array is read back as its value. -/
theorem C66_recover {s : Sess V} {D : List Nat} (hr : ReachableR s D) {a : Nat} (ha : a < s.w.g.length) (hargs : ArgsOK s.b s.w (.materialize a)) (hno : NoOffsetReshape s.w.g a) (h : ¬ HitsForeign s a) :
    ∃ s2, Stale.step s (.materialize a) = .ok (.unit, s2) ∧
      ∀ s3 D3, RunsR s2 (D.filter (· ≠ base s.w.g a)) s3 D3 → Stale.step s3 (.tolist a) = .ok (.list (value s.b s.w a).toNested, s3) := by
  have hi := hr.inv
  rcases materializeSX hi.fits hi.cpu hi.inv.inv.winv hi.inv.dirty hi.tags ha hargs.1 hargs.2.1 with ⟨hh, _⟩ | ⟨_, s2, e, r⟩
  · exact absurd hh h
  have es : Stale.step s (.materialize a) = .ok (.unit, s2) := by rw [stepS_materialize ha, e]; rfl
  refine ⟨s2, es, fun s3 D3 h3 => ?_⟩
  have hm := r.mat
  have hr2 : ReachableR s2 (D.filter (· ≠ base s.w.g a)) := by
    obtain ⟨e0, b0, hf, hg, hrun⟩ := hr
    exact ⟨e0, b0, hf, hg, .call (c := .materialize a) hrun (.inr hargs) (by unfold Stale.next; rw [es])⟩
  have hi2 := hr2.inv
  have ha2 : a < s2.w.g.length := by rw [hm.g]; exact ha
  have hD2 : base s2.w.g a ∉ D.filter (· ≠ base s.w.g a) := by rw [hm.g]; exact fun hx => (mem_without.1 hx).2 rfl
  have hno2 : NoOffsetReshape s2.w.g a := by rw [hm.g]; exact hno
  have hav : (cpuBuf s2.w (base s2.w.g a)).isSome := by
    have := hm.avail
    rw [cpuBuf_clean (by rw [hm.g] at hD2; exact hD2)] at this
    rw [hm.g]; exact this
  have et := stepS_tolist_ok hi2 ha2 hD2 hno2 hav
  have hv : value s2.b s2.w a = value s.b s.w a := by unfold value; rw [r.b, hm.g]
  rw [hv] at et
  exact (C66_stays hr2 hD2 hno2 et h3).2

/-- C66: `materialize.reset()` makes every array computable again: `materialize` then returns, and the array is read back as its value. -/
theorem C66_reset {s : Sess V} {D : List Nat} (hr : ReachableR s D) {a : Nat} (ha : a < s.w.g.length) (hns : NoScalarReshape s.w.g (base s.w.g a)) (hnc : NoCollision (launchLog s.b.isGpu s.w.g a))
    (hno : NoOffsetReshape s.w.g a) : ∃ s1 s2, Stale.step s .reset = .ok (.unit, s1) ∧ Stale.step s1 (.materialize a) = .ok (.unit, s2) ∧
      Stale.step s2 (.tolist a) = .ok (.list (value s.b s.w a).toNested, s2) := by
  have hi := hr.inv
  obtain ⟨s1, e1, hg1, hn1⟩ := C65_reset s
  have hs1 : s1 = { s with w := { s.w with cache := [], hits := fun _ => 0, hist := [], log := [], epoch := s.w.tick }, by_ := [] } := by
    unfold Stale.step at e1
    rw [if_pos (by simp [Call.arrays])] at e1
    cases e1; rfl
  have hr1 : ReachableR s1 D := by
    obtain ⟨e0, b0, hf, hg, hrun⟩ := hr
    exact ⟨e0, b0, hf, hg, .call (c := .reset) hrun (.inr trivial) (by unfold Stale.next; rw [e1])⟩
  have hargs : ArgsOK s1.b s1.w (.materialize a) := by
    subst hs1
    exact ⟨hns, by simpa using hnc, fun h => by rw [hi.cpu] at h; cases h⟩
  obtain ⟨s2, e2, h3⟩ := C66_recover hr1 (by rw [hg1]; exact ha) hargs (by rw [hg1]; exact hno) (hn1 a)
  have hv : value s1.b s1.w a = value s.b s.w a := by subst hs1; rfl
  rw [hv] at h3
  exact ⟨s1, s2, e1, e2, h3 s2 _ .refl⟩

/-! ### examples -/

namespace StaleDemo

theorem sessRun_runsR {cs : List (Call Int)} : ∀ {s s' s0 : Sess Int}, RInv s [] → RunsR s0 [] s [] → sessRun s cs = some s' → RunsR s0 [] s' [] := by
  induction cs with
  | nil => intro s s' s0 _ h hr; cases hr; exact h
  | cons c cs ih =>
    intro s s' s0 hi h hr
    unfold sessRun at hr
    split at hr
    · rename_i o s1 hs
      split at hr
      · rename_i hc
        have hin : ∀ a ∈ c.arrays, a < s.w.g.length := by
          unfold Stale.step at hs
          split at hs
          · assumption
          · cases hs
        have ha := argsOKb_sound hin hi.inv.inv.winv.wf hc
        have hn : Stale.next s c = some s1 := by unfold Stale.next; rw [hs]
        have hrep : repaired s.w [] c = [] := by cases c <;> rfl
        have h1 : RunsR s [] s1 (repaired s.w [] c) := .call .refl (.inr ha) hn
        have h2 : RunsR s0 [] s1 (repaired s.w [] c) := .call h (.inr ha) hn
        rw [hrep] at h1 h2
        exact ih (h1.later hi).1 h2 hr
      · cases hr
    · cases hr

theorem both_reachableR {e1 e2 : Engine} {b1 b2 : Backend Int} (h1 : Fits e1 b1) (h2 : Fits e2 b2) (g1 : b1.isGpu = false) (g2 : b2.isGpu = false) (hA : b2.A = b1.A) {cs1 cs2 : List (Call Int)} {s : Sess Int}
    (h : both e1 e2 b1 b2 cs1 cs2 = some s) : ReachableR s [] := by
  have hi0 : RInv (⟨e1, b1, Mat.init, []⟩ : Sess Int) [] := ReachableR.inv ⟨e1, b1, h1, g1, .refl⟩
  obtain ⟨s1, hs1, hs2⟩ := Option.bind_eq_some_iff.1 h
  have hr1 := sessRun_runsR hi0 .refl hs1
  have hb1 : s1.b.A = b1.A := (hr1.later hi0).2.1
  have hr2 : RunsR ⟨e1, b1, Mat.init, []⟩ [] { s1 with e := e2, b := b2 } [] := .switch hr1 h2 g2 (by rw [hA, hb1])
  exact ⟨e1, b1, h1, g1, sessRun_runsR (hr2.later hi0).1 hr2 hs2⟩

/-- Where a refused `materialize` leaves the session. -/
def leftBy (s : Option (Sess Int)) (a : Nat) : Option (Sess Int) := s.bind fun s => (Stale.left (a + 1) s a).map (·.2)

end StaleDemo

open StaleDemo in
/-- C66 is false in the code: `a.sum()` is computed on the C backend; after `backend.reset("PYTHON")` a second `a.sum()` cannot be computed (the exception is caught), but it can be read, and gives 0 instead of 21. -/
theorem C66_counterexample_zero : ∃ s s', both .clang .python Demo.clang Demo.py sum1 sum2 = some s ∧ ReachableR s [] ∧ outcome (some s) (.materialize 2) = some (.error .typeError) ∧
    Stale.left 3 s 2 = some (2, s') ∧ ReachableR s' [2] ∧ outcome (some s') (.tolist 2) = some (.ok [0]) ∧ leaves (value s'.b s'.w 2).toNested = [21] := by
  obtain ⟨s, hs⟩ : ∃ s, both .clang .python Demo.clang Demo.py sum1 sum2 = some s := Option.isSome_iff_exists.1 (by decide +kernel)
  have hr := both_reachableR c_fits py_fits rfl rfl rfl hs
  have fact : ∀ (P : Sess Int → Bool), ((both .clang .python Demo.clang Demo.py sum1 sum2).map P) = some true → P s = true := by
    intro P h; rw [hs] at h; simpa using h
  have hlt : 2 < s.w.g.length := by simpa using fact (fun s => decide (2 < s.w.g.length)) (by decide +kernel)
  have hok : argsOKb s.b s.w (.materialize 2) = true := fact (fun s => argsOKb s.b s.w (.materialize 2)) (by decide +kernel)
  have ho : outcome (some s) (.materialize 2) = some (.error .typeError) := by rw [← hs]; decide +kernel
  have hargs : ArgsOK s.b s.w (.materialize 2) := argsOKb_sound (by simpa [Call.arrays] using hlt) hr.inv.inv.inv.winv.wf hok
  have hf : HitsForeign s 2 := by
    by_contra hn
    rcases materializeSX hr.inv.fits hr.inv.cpu hr.inv.inv.inv.winv hr.inv.inv.dirty hr.inv.tags hlt hargs.1 hargs.2.1 with ⟨h, _⟩ | ⟨_, s', h, _⟩
    · exact hn h
    · unfold outcome at ho
      rw [Option.bind_some, stepS_materialize hlt, h] at ho
      cases ho
  obtain ⟨_, f, s', hl, hrun⟩ := C66_refused hr hlt hargs hf
  have hfe : f = 2 := by
    have := fact (fun s => ((Stale.left 3 s 2).map (·.1)) == some 2) (by decide +kernel)
    rw [hl] at this
    simpa using this
  subst hfe
  have hempty : (cpuBuf s.w 2).isSome = false := by
    have := fact (fun s => (cpuBuf s.w 2).isNone) (by decide +kernel)
    simpa using this
  have hl' : leftBy (both .clang .python Demo.clang Demo.py sum1 sum2) 2 = some s' := by
    rw [hs]; unfold leftBy; rw [Option.bind_some, hl]; rfl
  refine ⟨s, s', hs, hr, ho, hl, ?_, ?_, ?_⟩
  · obtain ⟨e0, b0, hf0, hg0, hrun0⟩ := hr
    have hsp : spoiled s.w [] (some 2) = [2] := by simp [spoiled, hempty]
    have hI := materializeSX (ReachableR.inv ⟨e0, b0, hf0, hg0, hrun0⟩).fits (ReachableR.inv ⟨e0, b0, hf0, hg0, hrun0⟩).cpu (ReachableR.inv ⟨e0, b0, hf0, hg0, hrun0⟩).inv.inv.winv
      (ReachableR.inv ⟨e0, b0, hf0, hg0, hrun0⟩).inv.dirty (ReachableR.inv ⟨e0, b0, hf0, hg0, hrun0⟩).tags hlt hargs.1 hargs.2.1
    rcases hI with ⟨_, _, f', s'', hl2, hI⟩ | ⟨hn, _⟩
    · rw [hl] at hl2; cases hl2
      have := RunsR.crash hrun0 hlt hargs hI
      rw [hsp] at this
      exact ⟨e0, b0, hf0, hg0, this⟩
    · exact absurd hf hn
  · rw [← hl']; decide +kernel
  · have : ((leftBy (both .clang .python Demo.clang Demo.py sum1 sum2) 2).map fun s => leaves (value s.b s.w 2).toNested) = some [21] := by decide +kernel
    rw [hl'] at this
    simpa using this

open StaleDemo in
/-- … and `materialize.reset()` makes up for it: the sum is computed and read as 21. -/
example : ∃ s', ReachableR s' [2] ∧ ∃ s1 s2, Stale.step s' .reset = .ok (.unit, s1) ∧ Stale.step s1 (.materialize 2) = .ok (.unit, s2) ∧ outcome (some s2) (.tolist 2) = some (.ok [21]) := by
  obtain ⟨s, s', hs, _, _, hl, hr, _, hv⟩ := C66_counterexample_zero
  have hl' : leftBy (both .clang .python Demo.clang Demo.py sum1 sum2) 2 = some s' := by
    rw [hs]; unfold leftBy; rw [Option.bind_some, hl]; rfl
  have fact : ∀ (P : Sess Int → Bool), ((leftBy (both .clang .python Demo.clang Demo.py sum1 sum2) 2).map P) = some true → P s' = true := by
    intro P h; rw [hl'] at h; simpa using h
  have hlt : 2 < s'.w.g.length := by simpa using fact (fun s => decide (2 < s.w.g.length)) (by decide +kernel)
  have hok : argsOKb s'.b { s'.w with log := [] } (.materialize 2) = true := fact (fun s => argsOKb s.b { s.w with log := [] } (.materialize 2)) (by decide +kernel)
  have hargs : ArgsOK s'.b { s'.w with log := [] } (.materialize 2) := argsOKb_sound (by simpa [Call.arrays] using hlt) hr.inv.inv.inv.winv.wf hok
  have hno : NoOffsetReshape s'.w.g 2 := .base (by simpa using fact (fun s => !(s.w.g.ctx 2).op.isView) (by decide +kernel))
  obtain ⟨s1, s2, e1, e2, e3⟩ := C66_reset hr hlt hargs.1 (by simpa using hargs.2.1) hno
  refine ⟨s', hr, s1, s2, e1, e2, ?_⟩
  unfold outcome
  rw [Option.bind_some, e3]
  simp only [hv]

end Whale.Props
