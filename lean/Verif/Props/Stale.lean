import Verif.Proofs.Stale
import Verif.Proofs.DemoDev
import Verif.Props.Session
import Verif.Props.EndToEnd
/-
C65: switching the backend without emptying the kernel cache.
-/
namespace Whale.Props
open Whale Mat Hist
variable {V : Type}

/-- C65, exactly: in every program that switches backends with `backend.reset` alone, `a.materialize()` raises an exception if it finds a kernel in the cache that was compiled for an executor whose
kernels the current one refuses, and otherwise it returns and `a.tolist()` then gives the value of `a`.  (C65 as stated is false: see the counterexamples.) -/
theorem C65_materialize_partial {s : Sess V} (hr : ReachableS s) {a : Nat} (ha : a < s.w.g.length) (hargs : ArgsOK s.b s.w (.materialize a)) :
    (HitsForeign s a ∧ Stale.step s (.materialize a) = .error .typeError) ∨
    (¬ HitsForeign s a ∧ ∃ s', Stale.step s (.materialize a) = .ok (.unit, s') ∧
      (NoOffsetReshape s.w.g a → ∃ s2, Stale.step s' (.tolist a) = .ok (.list (value s.b s.w a).toNested, s2))) := by
  have hi := hr.inv
  rw [stepS_materialize ha]
  rcases materializeS_ok hi.fits hi.inv.winv hi.tags ha hargs with ⟨h, e⟩ | ⟨h, s', e, r⟩
  · exact .inl ⟨h, by rw [e]; rfl⟩
  · refine .inr ⟨h, s', by rw [e]; rfl, fun hno => ?_⟩
    have ha' : a < s'.w.g.length := by rw [r.res.g]; exact ha
    obtain ⟨l, cpu, ev, et, _, _, hl⟩ := tolist_ok r.res.inv ha' (by rw [r.res.g]; exact r.res.avail)
    refine ⟨{ s' with w := { s'.w with cpu := cpu, ev := ev } }, ?_⟩
    rw [stepS_tolist, r.b, step_tolist ha', et]
    have := hl (by rw [r.res.g]; exact hno)
    rw [r.res.g] at this
    rw [this]; rfl

/-- C65: no such program ever reads a wrong element.  (A refused `materialize` ends these programs; what happens if they go on is C66.) -/
theorem C65_shows {s : Sess V} (hr : ReachableS s) {a : Nat} (hno : NoOffsetReshape s.w.g a) {o : Out V} {s' : Sess V} (h : Stale.step s (.tolist a) = .ok (o, s')) :
    o = .list (value s.b s.w a).toNested := by
  have hi := hr.inv
  rw [stepS_tolist] at h
  cases hs : step s.b s.w (.tolist a) with
  | error e => rw [hs] at h; cases h
  | ok p =>
    rw [hs] at h; cases h
    have ha : a < s.w.g.length := by
      unfold step at hs
      split at hs
      · rename_i hin; exact hin a (by simp [Call.arrays])
      · cases hs
    rw [step_tolist ha] at hs
    cases ht : tolist s.b s.w a with
    | error e => rw [ht] at hs; cases hs
    | ok q =>
      obtain ⟨l, cpu, ev, e, _, _, hd⟩ := tolist_ok hi.inv.winv ha (tolist_avail ht)
      rw [e] at hs
      cases hs
      rw [hd hno]; rfl

/-- C65: no array changes. -/
theorem C65_keeps {s s' : Sess V} (hr : ReachableS s) (hrun : RunsS s s') {a : Nat} (ha : a < s.w.g.length) :
    a < s'.w.g.length ∧ s'.w.g.shape a = s.w.g.shape a ∧ s'.w.g.dtype a = s.w.g.dtype a ∧ value s'.b s'.w a = value s.b s.w a := by
  obtain ⟨hi, hA, hl⟩ := hrun.later hr.inv
  refine ⟨Nat.lt_of_lt_of_le ha hl.ext.length, hl.ext.shape ha, by unfold Graph.dtype; rw [hl.ext.nd ha], ?_⟩
  unfold value
  rw [hA]
  exact den_ext s.b.A hl.ext hi.inv.winv.wf ha

/-- C65: an array that has been read once can be read ever after, with the same result, on every backend the program switches to. -/
theorem C65_stable {s s1 s' : Sess V} (hr : ReachableS s) {a : Nat} {l : Nested V} (h : Stale.step s (.tolist a) = .ok (.list l, s1)) (hrun : RunsS s1 s') :
    ∃ s2, Stale.step s' (.tolist a) = .ok (.list l, s2) := by
  have hi := hr.inv
  have hrun1 : RunsS s s1 := .call (c := .tolist a) .refl (.inr trivial) (by unfold Stale.next; rw [h])
  obtain ⟨hi1, hA1, hl1⟩ := hrun1.later hi
  obtain ⟨hi2, hA2, hl2⟩ := hrun.later hi1
  rw [stepS_tolist] at h
  obtain ⟨q, hq, e⟩ : ∃ q, step s.b s.w (.tolist a) = .ok q ∧ (q.1 = .list l ∧ s1 = { s with w := q.2 }) := by
    cases ht : step s.b s.w (.tolist a) with
    | error e => rw [ht] at h; cases h
    | ok q => obtain ⟨o, w'⟩ := q; rw [ht] at h; cases h; exact ⟨_, rfl, rfl, rfl⟩
  obtain ⟨hq1, rfl⟩ := e
  have ha : a < s.w.g.length := by
    unfold step at hq
    split at hq
    · rename_i hin; exact hin a (by simp [Call.arrays])
    · cases hq
  rw [step_tolist ha] at hq
  obtain ⟨p, hp, e⟩ : ∃ p, tolist s.b s.w a = .ok p ∧ (p.1 = l ∧ p.2 = q.2) := by
    cases ht : tolist s.b s.w a with
    | error e => rw [ht] at hq; cases hq
    | ok p => rw [ht] at hq; cases hq; exact ⟨p, rfl, by cases hq1; rfl, rfl⟩
  obtain ⟨hp1, hp2⟩ := e
  obtain ⟨hg, hav1⟩ := tolist_cpuBuf hp
  rw [hp2] at hg hav1
  have hbl := Nat.lt_of_le_of_lt (base_le hi.inv.winv.wf ha) ha
  have hbl1 : base s.w.g a < q.2.g.length := by rw [hg]; exact hbl
  have ha1 : a < q.2.g.length := by rw [hg]; exact ha
  have ha2 : a < s'.w.g.length := Nat.lt_of_lt_of_le ha1 hl2.ext.length
  have hbe : base s'.w.g a = base s.w.g a := by rw [base_ext hl2.ext hi1.inv.winv.wf ha1, hg]
  obtain ⟨l1, w3, t1, d1⟩ := tolist_data hi.inv.winv ha (tolist_avail hp)
  rw [hp] at t1; cases t1
  obtain ⟨l2, w4, t2, d2⟩ := tolist_data hi2.inv.winv ha2 (by rw [hbe]; exact .inl (cpuBuf_mono (hl2.ext.nd hbl1) (hl2.cpuMono _) hav1))
  have hAA : s'.b.A = s.b.A := hA2
  rw [hbe, hAA, den_ext s.b.A hl2.ext hi2.inv.winv.wf hbl1, hl2.ext.shape ha1, hl2.ext.strides ha1, hl2.ext.offset ha1] at d2
  have hg' : ({ s with w := q.2 } : Sess V).w.g = s.w.g := hg
  rw [hg', d1] at d2
  cases d2
  exact ⟨{ s' with w := w4 }, by rw [stepS_tolist, step_tolist ha2, t2, ← hp1]; rfl⟩

/-- C65: when `materialize` can be refused – after switching from C to Python, after starting a second CUDA context, or if an array of shape `()` is computed on the way.  (From Python to C, and between
CPU and GPU for arrays computed without arrays of shape `()`, the cache does no harm.) -/
theorem C65_when {s : Sess V} (hr : ReachableS s) {a : Nat} (ha : a < s.w.g.length) (hargs : ArgsOK s.b s.w (.materialize a)) (h : HitsForeign s a) :
    (s.e = .python ∧ ∃ p ∈ s.by_, p.2 = .clang) ∨ (∃ c c', c ≠ c' ∧ s.e = .cuda c ∧ ∃ p ∈ s.by_, p.2 = .cuda c') ∨ ∃ f, Reach s.w.g (base s.w.g a) f ∧ s.w.g.shape f = [] := by
  have hi := hr.inv
  obtain ⟨p, hp, k, hk, hne, hnp⟩ := h
  have hmem := mem_of_lookup hk
  obtain ⟨F, sch, hs, h1, h2⟩ := hi.tags.ok _ hmem
  obtain ⟨f, F', sch', hreach, hs', h1', h2', hol⟩ := launchLog_entry hi.inv.winv.wf ha hargs.1 hp
  simp only at h1 h2
  have hgpu : s.b.isGpu = s.e.gpu := by rw [hi.fits.gpu]; rfl
  rw [hgpu] at hs'
  have hscalar : k.gpu ≠ s.e.gpu → s.w.g.shape f = [] := by
    intro hx
    have hsk : sch.splits.map (fun s => (s.orig.name, s.factor, s.tailGuard)) = sch'.splits.map (fun s => (s.orig.name, s.factor, s.tailGuard)) := by
      have : skey sch = skey sch' := h1.symm.trans h1'
      exact congrArg SKey.splits this
    have hll : F.outLoops.map (fun l => (l.name, l.extent)) = F'.outLoops.map fun l => (l.name, l.extent) := h2.symm.trans h2'
    have hnil : F'.outLoops = [] := by
      by_contra hn
      cases hkg : k.gpu with
      | true =>
        have heg : s.e.gpu = false := by cases h : s.e.gpu <;> simp_all
        rw [hkg] at hs; rw [heg] at hs'
        have hF : F.outLoops ≠ [] := fun e => hn (by rw [e] at hll; simpa using hll.symm)
        have := splits_gpu hF hs
        rw [splits_cpu hs'] at hsk
        exact this (by simpa using hsk)
      | false =>
        have heg : s.e.gpu = true := by cases h : s.e.gpu <;> simp_all
        rw [hkg] at hs; rw [heg] at hs'
        have := splits_gpu hn hs'
        rw [splits_cpu hs] at hsk
        exact this (by simpa using hsk.symm)
    rw [hol] at hnil
    unfold Algo.outLoops at hnil
    simpa using hnil
  cases he : s.e with
  | python =>
    cases hk' : k with
    | python => exact absurd (he.trans hk'.symm) hne
    | clang => exact .inl ⟨rfl, _, hmem, hk'⟩
    | cuda c => exact .inr (.inr ⟨f, hreach, hscalar (by rw [hk', he]; simp [Engine.gpu])⟩)
  | clang =>
    cases hk' : k with
    | python => exact absurd ⟨he, hk'⟩ hnp
    | clang => exact absurd (he.trans hk'.symm) hne
    | cuda c => exact .inr (.inr ⟨f, hreach, hscalar (by rw [hk', he]; simp [Engine.gpu])⟩)
  | cuda c =>
    cases hk' : k with
    | python => exact .inr (.inr ⟨f, hreach, hscalar (by rw [hk', he]; simp [Engine.gpu])⟩)
    | clang => exact .inr (.inr ⟨f, hreach, hscalar (by rw [hk', he]; simp [Engine.gpu])⟩)
    | cuda c' => exact .inr (.inl ⟨c, c', fun e => hne (by rw [he, hk', e]), rfl, _, hmem, hk'⟩)

/-- C65: `materialize.reset()` ends the danger. -/
theorem C65_reset (s : Sess V) : ∃ s', Stale.step s .reset = .ok (.unit, s') ∧ s'.w.g = s.w.g ∧ ∀ a, ¬ HitsForeign s' a := by
  refine ⟨{ s with w := { s.w with cache := [], hits := fun _ => 0, hist := [], log := [], epoch := s.w.tick }, by_ := [] }, ?_, rfl, ?_⟩
  · unfold Stale.step
    rw [if_pos (by simp [Call.arrays])]; rfl
  · rintro a ⟨p, _, k, hk, _⟩
    cases hk

/-! ### examples -/

namespace StaleDemo

/-- Running a list of calls in a session. -/
def sessRun : Sess Int → List (Call Int) → Option (Sess Int)
  | s, [] => some s
  | s, c :: cs => match Stale.step s c with
    | .ok (_, s') => if argsOKb s.b s.w c then sessRun s' cs else none
    | .error _ => none

theorem sessRun_runs {cs : List (Call Int)} : ∀ {s s' s0 : Sess Int}, SInv s → RunsS s0 s → sessRun s cs = some s' → RunsS s0 s' := by
  induction cs with
  | nil => intro s s' s0 _ h hr; cases hr; exact h
  | cons c cs ih =>
    intro s s' s0 hi h hr
    unfold sessRun at hr
    split at hr
    · rename_i o s1 hs
      split at hr
      · rename_i hc
        have hin : ∀ a ∈ c.arrays, a < s.w.g.length := by
          unfold Stale.step at hs
          split at hs
          · assumption
          · cases hs
        have ha := argsOKb_sound hin hi.inv.winv.wf hc
        have hn : Stale.next s c = some s1 := by unfold Stale.next; rw [hs]
        have h1 : RunsS s s1 := .call .refl (.inr ha) hn
        exact ih (h1.later hi).1 (.call h (.inr ha) hn) hr
      · cases hr
    · cases hr

/-- Two programs with `backend.reset` in between. -/
def both (e1 e2 : Engine) (b1 b2 : Backend Int) (cs1 cs2 : List (Call Int)) : Option (Sess Int) :=
  (sessRun ⟨e1, b1, Mat.init, []⟩ cs1).bind fun s => sessRun { s with e := e2, b := b2 } cs2

/-- How a call ends: the list it returns, or the exception. -/
def outcome (s : Option (Sess Int)) (c : Call Int) : Option (Except Err (List Int)) := s.bind fun s => match Stale.step s c with
  | .ok (.list l, _) => some (.ok (leaves l))
  | .ok _ => some (.ok [])
  | .error e => some (.error e)

theorem both_reachable {e1 e2 : Engine} {b1 b2 : Backend Int} (h1 : Fits e1 b1) (h2 : Fits e2 b2) (hA : b2.A = b1.A) {cs1 cs2 : List (Call Int)} {s : Sess Int}
    (h : both e1 e2 b1 b2 cs1 cs2 = some s) (hdev : ∀ s1, sessRun ⟨e1, b1, Mat.init, []⟩ cs1 = some s1 → s1.w.ev = [] ∧ s1.b = b1) : ReachableS s := by
  have hi0 : SInv (⟨e1, b1, Mat.init, []⟩ : Sess Int) := ReachableS.inv ⟨e1, b1, h1, .refl⟩
  obtain ⟨s1, hs1, hs2⟩ := Option.bind_eq_some_iff.1 h
  have hr1 := sessRun_runs hi0 .refl hs1
  have hi1 := (hr1.later hi0).1
  obtain ⟨hev, hb1⟩ := hdev s1 hs1
  have hr2 : RunsS ⟨e1, b1, Mat.init, []⟩ { s1 with e := e2, b := b2 } := .switch hr1 h2 (by rw [hA, hb1]) (fun _ i => by
    cases hd : s1.w.dev i with
    | none => rfl
    | some l =>
      have := (hi1.inv.winv.ev.dev i).1 (by rw [hd]; rfl)
      rw [hev] at this
      obtain ⟨n, pre, post, hn, _⟩ := this
      simp at hn)
  exact ⟨e1, b1, h1, sessRun_runs (hr2.later hi0).1 hr2 hs2⟩

theorem py_fits : Fits .python Demo.py := ⟨Demo.py_faithful, rfl, rfl⟩
theorem c_fits : Fits .clang Demo.clang := ⟨Demo.clang_faithful, rfl, rfl⟩
theorem cuda_fits (c : Nat) : Fits (.cuda c) Demo.cuda := ⟨Demo.cuda_faithful, rfl, rfl⟩

def squares1 : List (Call Int) := [.array Demo.m23, .bin .mul 0 0, .materialize 1]
def squares2 : List (Call Int) := [.bin .mul 0 0]
def sum1 : List (Call Int) := [.array Demo.m23, .sum 0 .none false, .materialize 1]
def sum2 : List (Call Int) := [.sum 0 .none false]

def noDev (s : Option (Sess Int)) : Bool := match s with
  | some s => s.w.ev.isEmpty
  | none => true

theorem sessRun_b {cs : List (Call Int)} : ∀ {s s' : Sess Int}, SInv s → sessRun s cs = some s' → s'.b = s.b := by
  induction cs with
  | nil => intro s s' _ h; cases h; rfl
  | cons c cs ih =>
    intro s s' hi hr
    have hr' := hr
    unfold sessRun at hr
    split at hr
    · rename_i o s1 hs
      split at hr
      · rename_i hc
        have hin : ∀ a ∈ c.arrays, a < s.w.g.length := by
          unfold Stale.step at hs
          split at hs
          · assumption
          · cases hs
        have ha := argsOKb_sound hin hi.inv.winv.wf hc
        have h1 : RunsS s s1 := .call .refl (.inr ha) (by unfold Stale.next; rw [hs])
        have hb : s1.b = s.b := by
          by_cases hm : ∃ a, c = .materialize a
          · obtain ⟨a, rfl⟩ := hm
            have hlt := hin a (by simp [Call.arrays])
            rw [stepS_materialize hlt] at hs
            rcases materializeS_ok hi.fits hi.inv.winv hi.tags hlt ha with ⟨_, e⟩ | ⟨_, s2, e, r⟩
            · rw [e] at hs; cases hs
            · rw [e] at hs; cases hs; exact r.b
          · by_cases hreset : c = .reset
            · subst hreset
              unfold Stale.step at hs
              rw [if_pos hin] at hs
              cases hs; rfl
            · rw [stepS_other (fun a h => hm ⟨a, h⟩) hreset] at hs
              cases ht : step s.b s.w c with
              | error e => rw [ht] at hs; cases hs
              | ok p => rw [ht] at hs; cases hs; rfl
        rw [ih (h1.later hi).1 hr, hb]
      · cases hr
    · cases hr

theorem noDev_sound {e : Engine} {b : Backend Int} (hf : Fits e b) {cs : List (Call Int)} (h : noDev (sessRun ⟨e, b, Mat.init, []⟩ cs) = true) :
    ∀ s1, sessRun ⟨e, b, Mat.init, []⟩ cs = some s1 → s1.w.ev = [] ∧ s1.b = b := by
  intro s1 hs
  rw [hs] at h
  exact ⟨List.isEmpty_iff.1 h, sessRun_b (ReachableS.inv ⟨e, b, hf, .refl⟩) hs⟩

end StaleDemo

open StaleDemo in
/-- C65 is false in the code: after the sum of a 2×3 array was computed on the C backend, the Python backend raises when it computes such a sum … -/
theorem C65_counterexample_c_python : ∃ s, both .clang .python Demo.clang Demo.py sum1 sum2 = some s ∧ ReachableS s ∧ HitsForeign s 2 ∧
    outcome (some s) (.materialize 2) = some (.error .typeError) := by
  obtain ⟨s, hs⟩ : ∃ s, both .clang .python Demo.clang Demo.py sum1 sum2 = some s := Option.isSome_iff_exists.1 (by decide +kernel)
  have hr := both_reachable c_fits py_fits rfl hs (noDev_sound c_fits (by decide +kernel))
  have ho : outcome (some s) (.materialize 2) = some (.error .typeError) := by
    rw [← hs]; decide +kernel
  refine ⟨s, hs, hr, ?_, ho⟩
  have hlt : 2 < s.w.g.length := by
    have : ((both .clang .python Demo.clang Demo.py sum1 sum2).map fun s => decide (2 < s.w.g.length)) = some true := by decide +kernel
    rw [hs] at this
    simpa using this
  have hok : argsOKb s.b s.w (.materialize 2) = true := by
    have : ((both .clang .python Demo.clang Demo.py sum1 sum2).map fun s => argsOKb s.b s.w (.materialize 2)) = some true := by decide +kernel
    rw [hs] at this
    simpa using this
  rcases C65_materialize_partial hr hlt (argsOKb_sound (by simpa [Call.arrays] using hlt) hr.inv.inv.winv.wf hok) with ⟨h, _⟩ | ⟨_, s', h, _⟩
  · exact h
  · unfold outcome at ho
    simp only [Option.bind_some, h] at ho
    cases ho

open StaleDemo in
/-- … and after a sum of all elements was computed on the CPU, the GPU backend raises when it computes such a sum. -/
theorem C65_counterexample_scalar : ∃ s, both .python (.cuda 0) Demo.py Demo.cuda sum1 sum2 = some s ∧ ReachableS s ∧
    outcome (some s) (.materialize 2) = some (.error .typeError) := by
  obtain ⟨s, hs⟩ : ∃ s, both .python (.cuda 0) Demo.py Demo.cuda sum1 sum2 = some s := Option.isSome_iff_exists.1 (by decide +kernel)
  have hr := both_reachable py_fits (cuda_fits 0) rfl hs (noDev_sound py_fits (by decide +kernel))
  exact ⟨s, hs, hr, by rw [← hs]; decide +kernel⟩

open StaleDemo in
/-- From Python to C the cached kernel is run (by the rules of Python), and from Python to CUDA another kernel is compiled: both work. -/
example : (∃ s, both .python .clang Demo.py Demo.clang squares1 (squares2 ++ [.materialize 2]) = some s ∧ ReachableS s ∧ outcome (some s) (.tolist 2) = some (.ok [1, 4, 9, 16, 25, 36]) ∧ s.by_.length = 1) ∧
    ∃ s, both .python (.cuda 0) Demo.py Demo.cuda squares1 (squares2 ++ [.materialize 2]) = some s ∧ ReachableS s ∧ outcome (some s) (.tolist 2) = some (.ok [1, 4, 9, 16, 25, 36]) ∧ s.by_.length = 2 := by
  refine ⟨?_, ?_⟩
  · obtain ⟨s, hs⟩ : ∃ s, both .python .clang Demo.py Demo.clang squares1 (squares2 ++ [.materialize 2]) = some s := Option.isSome_iff_exists.1 (by decide +kernel)
    refine ⟨s, hs, both_reachable py_fits c_fits rfl hs (noDev_sound py_fits (by decide +kernel)), by rw [← hs]; decide +kernel, ?_⟩
    have : ((both .python .clang Demo.py Demo.clang squares1 (squares2 ++ [.materialize 2])).map fun s => s.by_.length) = some 1 := by decide +kernel
    rw [hs] at this; simpa using this
  · obtain ⟨s, hs⟩ : ∃ s, both .python (.cuda 0) Demo.py Demo.cuda squares1 (squares2 ++ [.materialize 2]) = some s := Option.isSome_iff_exists.1 (by decide +kernel)
    refine ⟨s, hs, both_reachable py_fits (cuda_fits 0) rfl hs (noDev_sound py_fits (by decide +kernel)), by rw [← hs]; decide +kernel, ?_⟩
    have : ((both .python (.cuda 0) Demo.py Demo.cuda squares1 (squares2 ++ [.materialize 2])).map fun s => s.by_.length) = some 2 := by decide +kernel
    rw [hs] at this; simpa using this

end Whale.Props
