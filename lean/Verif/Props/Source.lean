import Verif.Proofs.Source
import Verif.Proofs.SourceElem
import Verif.Proofs.SourceRun
import Verif.Props.EndToEnd
import Verif.Spec.Related
/-
C64: whole programs, with `materialize` generating source texts, compiling and calling them.
-/
namespace Whale.Props
open Whale Mat Hist Kern Algo
variable {V : Type}

/-- The kernels' programs compute their arrays: C48, put together for every kernel of a conversion. -/
theorem calls_ok {R : Runtime V} (hR : R.OK) (hb : Faithful R.b) (hI : Sem.IntLaws R.L R.N) {w : World V} (hr : Reachable R.b w) {a : Nat} (ha : Computed w.g a)
    (hns : NoScalarReshape w.g a) (hS : Suits R w.g a) : CallsOK (¬ AllTotal R w.g a) R w.g a := by
  intro f ins sch K hG name tick o ho
  have hreach : Reach w.g a f := (gen_reach hb hr ha hns hG).1
  obtain ⟨hA, hel⟩ := hS f ins sch K hG
  unfold Src.exec
  cases hgpu : R.b.isGpu with
  | false =>
    have hL : R.L ≠ .cuda := by rw [Ne, hR.lang, hgpu]; simp
    simp only [Bool.false_eq_true, if_false]
    obtain ⟨st, hex, hval⟩ := cpu_stores hb hgpu hr ha hns hG ho
    have := call_kernel (L := R.L) (N := R.N) hb hr ha hns hG hI hA hel (fun _ _ => none) (fun _ _ => none) (fun _ _ _ h => by cases h) (B := fun _ => True)
      (fun _ _ _ _ h => ⟨h, trivial⟩) (fun _ _ _ _ => trivial) (fun _ _ _ _ _ => trivial) ⟨trivial, trivial⟩ (Sem.lits_true _) (hex _ (by split <;> rfl)) name
    rw [hval] at this
    change Sem.Out _ (Sem.call R.L R.N (fun _ _ => none) (K.program R.L name) (o :: ins.map fun i => (den R.b.A w.g i).flatten)) _ at this
    rcases this with ⟨h1, h2⟩ | ⟨l, h1, h2⟩
    · rw [h1]; exact .inr ⟨rfl, fun ht => h2 (ht f hreach)⟩
    · rw [h1]; exact .inl ⟨l, rfl, h2⟩
  | true =>
    have hL : R.L = .cuda := hR.lang.2 hgpu
    simp only [if_true]
    rw [hL] at hI hA hel ⊢
    have hord := hR.order tick sch
    obtain ⟨st, hs, hval⟩ := gpu_stores hb hgpu hr ha hns hG ho
    have := call_threads hb hr ha hns hG hI hA hel (B := fun _ => True) (fun _ _ _ _ h => ⟨h, trivial⟩) (fun _ _ _ _ _ => trivial) ⟨trivial, trivial⟩ (Sem.lits_true _) (fun _ _ _ _ => trivial)
      (fun t ht => hs t ht .c rfl) name (R.order tick sch) o (fun t ht => hord.mem_iff.1 ht) rfl
    rw [hval _ hord] at this
    change Sem.Out _ ((R.order tick sch).foldlM (fun buf t => Sem.call .cuda R.N (Sem.threadVars t) (K.program .cuda name) (buf :: ins.map fun i => (den R.b.A w.g i).flatten)) o) _ at this
    rcases this with ⟨h1, h2⟩ | ⟨l, h1, h2⟩
    · rw [h1]; exact .inr ⟨rfl, fun ht => h2 (by have := ht f hreach; rw [hL] at this; exact this)⟩
    · rw [h1]; exact .inl ⟨l, rfl, h2⟩

/-- C64, one call: where the session with statement trees returns, the session with source texts returns the same and stays in step with it, except that a `materialize` may stop at a number
operation without a result; where the former raises, the latter raises the same exception. -/
theorem C64_step {R : Runtime V} (hR : R.OK) (hb : Faithful R.b) (hI : Sem.IntLaws R.L R.N) {s : SWorld V} {w : World V} (hr : Reachable R.b w) (hm : Matches R s w) {c : Call V}
    (hok : Src.ArgsOK R s.w c) :
    (∃ e, step R.b w c = .error e ∧ Src.step R s c = .error (.err e)) ∨
    (∃ o w', step R.b w c = .ok (o, w') ∧
      ((∃ s', Src.step R s c = .ok (o, s') ∧ Matches R s' w') ∨ (Src.step R s c = .error (.fault .arith) ∧ ∃ a, c = .materialize a ∧ ¬ AllTotal R s.w.g (base s.w.g a)))) := by
  have hsw : s.w = w.strip := hm.same
  have hg : s.w.g = w.g := by rw [hsw]; rfl
  have hargs : ArgsOK R.b w c := by
    have h1 := hok.1
    rw [hsw] at h1
    cases c <;> exact h1
  unfold step Src.step
  rw [hg]
  by_cases hin : ∀ a ∈ c.arrays, a < w.g.length
  swap
  · rw [if_neg hin, if_neg hin]; exact .inl ⟨_, rfl, rfl⟩
  rw [if_pos hin, if_pos hin]
  by_cases hmat : ∃ a, c = .materialize a
  · obtain ⟨a, rfl⟩ := hmat
    have ha : a < w.g.length := hin a (by simp [Call.arrays])
    have hi := (hr.inv hb).winv
    obtain ⟨w', e, hsim⟩ := materialize_sim hR hb (P := ¬ AllTotal R w.g (base w.g a)) hi ha hargs.1 hargs.2.1
      (fun hgpu => kernelSizes_of hi.wf ha hargs.1 (hargs.2.2 hgpu))
      (fun hcomp => calls_ok hR hb hI hr hcomp hargs.1 (by have := hok.2 a rfl; rw [hg] at this; exact this hcomp)) hm
    refine .inr ⟨.unit, w', by simp only [exec1, e]; rfl, ?_⟩
    rcases hsim with ⟨s', e', hm'⟩ | ⟨e', hP⟩
    · exact .inl ⟨s', by simp only [Src.exec1, e']; rfl, hm'⟩
    · exact .inr ⟨by simp only [Src.exec1, e']; rfl, a, rfl, hP⟩
  · have hne : ∀ a, c ≠ .materialize a := fun a h => hmat ⟨a, h⟩
    by_cases hreset : c = .reset
    · subst hreset
      refine .inr ⟨_, _, rfl, .inl ⟨_, rfl, ?_, .nil⟩⟩
      rw [hsw]; rfl
    · have hx := strip_exec1 R.b w hne
      have hsrc : Src.exec1 R s c = (Src.lift (exec1 R.b s.w c)).map fun p => (p.1, { s with w := p.2 }) := by
        cases c <;> first | rfl | exact absurd rfl (hne _) | exact absurd rfl hreset
      rw [hsrc, hsw, hx]
      cases he : exec1 R.b w c with
      | error e => exact .inl ⟨e, rfl, rfl⟩
      | ok q =>
        refine .inr ⟨q.1, q.2, rfl, .inl ⟨_, rfl, rfl, ?_⟩⟩
        show List.Forall₂ _ s.texts q.2.cache
        rw [exec1_cache hne hreset he]
        exact hm.texts

theorem matches_init (R : Runtime V) : Matches R Src.init Mat.init := ⟨rfl, .nil⟩

/-- Runs with texts are runs with statement trees. -/
theorem sruns_sim {R : Runtime V} (hR : R.OK) (hb : Faithful R.b) (hI : Sem.IntLaws R.L R.N) {s s' : SWorld V} {w : World V} (hr : Reachable R.b w) (hm : Matches R s w) (h : SRuns R s s') :
    ∃ w', Runs R.b w w' ∧ Reachable R.b w' ∧ Matches R s' w' := by
  induction h with
  | refl => exact ⟨w, .refl, hr, hm⟩
  | @call s1 s' c o _ hok hs ih =>
    obtain ⟨w1, hw1, hr1, hm1⟩ := ih
    have hargs : ArgsOK R.b w1 c := by
      have h1 := hok.1
      rw [show s1.w = w1.strip from hm1.same] at h1
      cases c <;> exact h1
    rcases C64_step hR hb hI hr1 hm1 hok with ⟨e, _, h2⟩ | ⟨o', w2, h1, h2⟩
    · rw [hs] at h2; cases h2
    · rcases h2 with ⟨s2, h2, hm2⟩ | ⟨h2, _⟩
      · rw [hs] at h2; cases h2
        have hn : next R.b w1 c = some w2 := by unfold next; rw [h1]
        exact ⟨w2, .call hw1 (.inr hargs) hn, .call hr1 (.inr hargs) hn, hm2⟩
      · rw [hs] at h2; cases h2
  | @stopped s1 w' y _ hy hok hs ih =>
    obtain ⟨w1, hw1, hr1, hm1⟩ := ih
    have hsw : s1.w = w1.strip := hm1.same
    rw [hsw] at hs hok hy
    obtain ⟨w2, h2, rfl, hc⟩ := strip_stopped hs
    refine ⟨w2, .stopped hw1 hy hok h2, .stopped hr1 hy hok h2, rfl, ?_⟩
    show List.Forall₂ _ s1.texts w2.cache
    rw [hc]; exact hm1.texts

theorem src_session {R : Runtime V} (hR : R.OK) (hb : Faithful R.b) (hI : Sem.IntLaws R.L R.N) {s : SWorld V} (h : SReachable R s) : ∃ w, Reachable R.b w ∧ Matches R s w := by
  obtain ⟨w, _, hr, hm⟩ := sruns_sim hR hb hI .init (matches_init R) h
  exact ⟨w, hr, hm⟩

/-- C64: whatever the program, the state that a session with source texts is in is, but for the cache, a state of a session with statement trees that all other properties are about (on a backend
with the same arithmetic that runs every kernel by the rules of its language), and the cached texts are the sources of the cached kernels. -/
theorem C64_session {R : Runtime V} (hR : R.OK) (hI : Sem.IntLaws R.L R.N) {s : SWorld V} (h : SReachable R s) :
    ∃ b, Faithful b ∧ b.A = R.b.A ∧ b.isC = R.b.isC ∧ b.isGpu = R.b.isGpu ∧ b.junk = R.b.junk ∧ ∃ w, Reachable b w ∧ Matches R s w := by
  obtain ⟨run, hb⟩ := faithful_run R
  obtain ⟨w, hr, hm⟩ := src_session (R := R.withRun run) hR.withRun hb hI (withRun_sreachable.2 h)
  exact ⟨_, hb, rfl, rfl, rfl, rfl, w, hr, hm.withRun⟩

theorem stracks_sim {R : Runtime V} (hR : R.OK) (hb : Faithful R.b) (hI : Sem.IntLaws R.L R.N) {s : SWorld V} {H : List (Nat × Tensor V)} (h : STracks R s H) :
    ∃ w, Tracks R.b w H ∧ Reachable R.b w ∧ Matches R s w := by
  induction h with
  | init => exact ⟨_, .init, .init, matches_init R⟩
  | @returns s s' H c r T ρ _ hok hin hs hmean ih =>
    obtain ⟨w, ht, hr, hm⟩ := ih
    have hsw : s.w = w.strip := hm.same
    have hargs : ArgsOK R.b w c := by
      have h1 := hok.1
      rw [hsw] at h1
      cases c <;> exact h1
    rw [hsw] at hmean
    rcases C64_step hR hb hI hr hm hok with ⟨e, _, h2⟩ | ⟨o', w2, h1, h2⟩
    · rw [hs] at h2; cases h2
    · rcases h2 with ⟨s2, h2, hm2⟩ | ⟨h2, _⟩
      · rw [hs] at h2; cases h2
        exact ⟨w2, .returns ρ ht hargs hin h1 hmean, .call hr (.inr hargs) (by unfold next; rw [h1]), hm2⟩
      · rw [hs] at h2; cases h2
  | @other s s' H c o _ hok hs ih =>
    obtain ⟨w, ht, hr, hm⟩ := ih
    have hsw : s.w = w.strip := hm.same
    have hargs : ArgsOK R.b w c := by
      have h1 := hok.1
      rw [hsw] at h1
      cases c <;> exact h1
    rcases C64_step hR hb hI hr hm hok with ⟨e, _, h2⟩ | ⟨o', w2, h1, h2⟩
    · rw [hs] at h2; cases h2
    · rcases h2 with ⟨s2, h2, hm2⟩ | ⟨h2, _⟩
      · rw [hs] at h2; cases h2
        have hn : next R.b w c = some w2 := by unfold next; rw [h1]
        exact ⟨w2, .other ht (.inr hargs) hn, .call hr (.inr hargs) hn, hm2⟩
      · rw [hs] at h2; cases h2
  | @stopped s w' H y _ hy hok hs ih =>
    obtain ⟨w, ht, hr, hm⟩ := ih
    have hsw : s.w = w.strip := hm.same
    rw [hsw] at hs hok hy
    obtain ⟨w2, h2, rfl, hc⟩ := strip_stopped hs
    refine ⟨w2, .stopped ht hy hok h2, .stopped hr hy hok h2, rfl, ?_⟩
    show List.Forall₂ _ s.texts w2.cache
    rw [hc]; exact hm.texts

theorem src_end_to_end {R : Runtime V} (hR : R.OK) (hb : Faithful R.b) (hI : Sem.IntLaws R.L R.N) {s : SWorld V} {H : List (Nat × Tensor V)} (h : STracks R s H) {a : Nat} {T : Tensor V}
    (ha : (a, T) ∈ H) : s.w.g.shape a = T.shape ∧
      (NoOffsetReshape s.w.g a → ∀ s1, SRuns R s s1 → Src.ArgsOK R s1.w (.materialize a) →
        (Src.step R s1 (.materialize a) = .error (.fault .arith) ∧ ¬ AllTotal R s1.w.g (base s1.w.g a)) ∨
        ∃ s2, Src.step R s1 (.materialize a) = .ok (.unit, s2) ∧ ∀ s3, SRuns R s2 s3 → ∃ s4, Src.step R s3 (.tolist a) = .ok (.list T.toNested, s4)) := by
  obtain ⟨w, ht, hr, hm⟩ := stracks_sim hR hb hI h
  have his := C19_compiler_correct hb ht ha
  have hg : s.w.g = w.g := by rw [show s.w = w.strip from hm.same]; rfl
  refine ⟨by rw [hg]; exact his.shape, fun hno s1 h1 hok => ?_⟩
  rw [hg] at hno
  obtain ⟨w1, hw1, hr1, hm1⟩ := sruns_sim hR hb hI hr hm h1
  have hargs : ArgsOK R.b w1 (.materialize a) := by
    have h1 := hok.1
    rw [show s1.w = w1.strip from hm1.same] at h1
    exact h1
  obtain ⟨w2, e2, hrest⟩ := his.computes hno w1 hw1 hargs
  rcases C64_step hR hb hI hr1 hm1 hok with ⟨e, h2, _⟩ | ⟨o', w2', h2, h3⟩
  · rw [e2] at h2; cases h2
  · rw [e2] at h2; cases h2
    rcases h3 with ⟨s2, h3, hm2⟩ | ⟨h3, a', he, hnt⟩
    · refine .inr ⟨s2, h3, fun s3 h4 => ?_⟩
      have hr2 : Reachable R.b w2 := .call hr1 (.inr hargs) (by unfold next; rw [e2])
      obtain ⟨w3, hw3, hr3, hm3⟩ := sruns_sim hR hb hI hr2 hm2 h4
      obtain ⟨w4, e4⟩ := hrest w3 hw3
      rcases C64_step (c := .tolist a) hR hb hI hr3 hm3 ⟨trivial, fun _ h => by cases h⟩ with ⟨e, h5, _⟩ | ⟨o', w5, h5, h6⟩
      · rw [e4] at h5; cases h5
      · rw [e4] at h5; cases h5
        rcases h6 with ⟨s4, h6, _⟩ | ⟨_, a', he, _⟩
        · exact ⟨s4, h6⟩
        · cases he
    · cases he; exact .inl ⟨h3, hnt⟩

/-- C64, end to end: an array that a program is supposed to have made as `T` has `T`'s shape, and whatever is called from then on, `a.materialize()` – generating, compiling and calling source
texts – stops at most at a number operation without a result, and not if all operations have results; if it returns, then whatever else is called, `a.tolist()` returns `T`. (Views made by
reshaping a view with an offset excepted, see C09.) -/
theorem C64_end_to_end {R : Runtime V} (hR : R.OK) (hI : Sem.IntLaws R.L R.N) {s : SWorld V} {H : List (Nat × Tensor V)} (h : STracks R s H) {a : Nat} {T : Tensor V}
    (ha : (a, T) ∈ H) : s.w.g.shape a = T.shape ∧
      (NoOffsetReshape s.w.g a → ∀ s1, SRuns R s s1 → Src.ArgsOK R s1.w (.materialize a) →
        (Src.step R s1 (.materialize a) = .error (.fault .arith) ∧ ¬ AllTotal R s1.w.g (base s1.w.g a)) ∨
        ∃ s2, Src.step R s1 (.materialize a) = .ok (.unit, s2) ∧ ∀ s3, SRuns R s2 s3 → ∃ s4, Src.step R s3 (.tolist a) = .ok (.list T.toNested, s4)) := by
  obtain ⟨run, hb⟩ := faithful_run R
  obtain ⟨h1, h2⟩ := src_end_to_end (R := R.withRun run) hR.withRun hb hI (withRun_stracks.2 h) ha
  refine ⟨h1, fun hno s1 hs1 hok => ?_⟩
  rcases h2 hno s1 (withRun_sruns.2 hs1) hok with ⟨h3, h4⟩ | ⟨s2, h3, h4⟩
  · rw [withRun_step] at h3; exact .inl ⟨h3, h4⟩
  · rw [withRun_step] at h3
    refine .inr ⟨s2, h3, fun s3 hs3 => ?_⟩
    obtain ⟨s4, h5⟩ := h4 s3 (withRun_sruns.2 hs3)
    rw [withRun_step] at h5
    exact ⟨s4, h5⟩

/-- C64, what has to be checked about the numbers: nothing in Python, … -/
theorem C64_suits_python {F : Type} (O : Sem.Floats F) (junk : Sem.Py F) {R : Runtime (Sem.Py F)} (hL : R.L = .python) (hN : R.N = Sem.pyNum O) {dt : DType}
    (hA : R.b.A = Sem.scalarOf .python (Sem.pyNum O) dt junk) (g : Graph (Sem.Py F)) (a : Nat) : Suits R g a := by
  intro f ins sch K _
  rw [hL, hN, hA]
  exact ⟨Sem.scalarOf_agrees junk Sem.py_conv, fun _ _ _ _ => rfl⟩

theorem suits_c {S D : Type} (o : Bool) (O : Sem.CFloats S D) {junk : Sem.CVal S D} {R : Runtime (Sem.CVal S D)} (hR : R.OK) (hb : Faithful R.b) (hL : R.L ≠ .python)
    (hN : R.N = Sem.cNum o O) {dt : DType} (hA : R.b.A = Sem.scalarOf R.L R.N dt junk) (hj : Sem.Elem R.L R.N dt junk) {w : World (Sem.CVal S D)} (hr : Reachable R.b w) {a : Nat}
    (ha : Computed w.g a) (hns : NoScalarReshape w.g a) (h1 : OneType R.L R.N dt w.g a) : Suits R w.g a := by
  intro f ins sch K hG
  have hconv : ∀ x v, Sem.convert R.N (Sem.elemType R.L dt) x = some v → Sem.Elem R.L R.N dt v := by rw [hN]; exact Sem.c_conv hL o O dt
  have hreach : Reach w.g a f ∧ ∀ i ∈ ins, Reach w.g a i := gen_reach hb hr ha hns hG
  rw [(h1 f hreach.1).1, hA]
  refine ⟨Sem.scalarOf_agrees junk hconv, fun i hi v hv => ?_⟩
  refine den_elem (P := Sem.Elem R.L R.N dt) ?_ ?_ ?_ (i := i) (fun j hj' l hl v hv => (h1 j ((hreach.2 i hi).trans hj')).2 l hl v hv) v hv
  · exact scalarOf_elem_int hconv hj 0
  · exact fun op x _ => scalarOf_elem_un hconv hj op x
  · exact fun op x y _ _ => scalarOf_elem_bin hconv hj op x y

/-- … and in C and CUDA that the arrays have one element type. -/
theorem C64_suits_c {S D : Type} (o : Bool) (O : Sem.CFloats S D) {junk : Sem.CVal S D} {R : Runtime (Sem.CVal S D)} (hR : R.OK) (hI : Sem.IntLaws R.L R.N) (hL : R.L ≠ .python)
    (hN : R.N = Sem.cNum o O) {dt : DType} (hA : R.b.A = Sem.scalarOf R.L R.N dt junk) (hj : Sem.Elem R.L R.N dt junk) {s : SWorld (Sem.CVal S D)} (hr : SReachable R s) {a : Nat}
    (ha : Computed s.w.g a) (hns : NoScalarReshape s.w.g a) (h1 : OneType R.L R.N dt s.w.g a) : Suits R s.w.g a := by
  obtain ⟨run, hb⟩ := faithful_run R
  obtain ⟨w, hw, hm⟩ := src_session (R := R.withRun run) hR.withRun hb hI (withRun_sreachable.2 hr)
  have hg : s.w.g = w.g := by rw [show s.w = w.strip from hm.same]; rfl
  rw [hg] at ha hns h1 ⊢
  exact suits_c o O (R := R.withRun run) hR.withRun hb hL hN hA hj hw ha hns h1

/-! ### examples -/

/-- Running a list of calls; `chk` says that the numbers suit. -/
def srcRun (R : Runtime V) (chk : SWorld V → Bool) : SWorld V → List (Call V) → Option (SWorld V)
  | s, [] => some s
  | s, c :: cs => match Src.step R s c with
    | .ok (_, s') => if argsOKb R.b s.w c && chk s then srcRun R chk s' cs else none
    | .error _ => none

theorem srcRun_runs {R : Runtime V} (hR : R.OK) (hb : Faithful R.b) (hI : Sem.IntLaws R.L R.N) {chk : SWorld V → Bool}
    (hchk : ∀ s w a, Reachable R.b w → Matches R s w → chk s = true → Computed w.g a → NoScalarReshape w.g a → Suits R w.g a) {cs : List (Call V)} :
    ∀ {s s' : SWorld V}, SReachable R s → srcRun R chk s cs = some s' → SReachable R s' := by
  induction cs with
  | nil => intro s s' h hr; cases hr; exact h
  | cons c cs ih =>
    intro s s' h hr
    unfold srcRun at hr
    split at hr
    · rename_i o s1 hs
      split at hr
      · rename_i hc
        rw [Bool.and_eq_true] at hc
        obtain ⟨w, hw, hm⟩ := src_session hR hb hI h
        have hsw : s.w = w.strip := hm.same
        have hwf : WF s.w.g := by rw [hsw]; exact (hw.inv hb).winv.wf
        have hin : ∀ a ∈ c.arrays, a < s.w.g.length := by
          unfold Src.step at hs
          split at hs
          · assumption
          · cases hs
        have ha := argsOKb_sound hin hwf hc.1
        refine ih (.call h ⟨ha, fun a he hcomp => ?_⟩ hs) hr
        subst he
        have hg : s.w.g = w.g := by rw [hsw]; rfl
        rw [hg] at hcomp ⊢
        exact hchk s w _ hw hm hc.2 hcomp (by have := ha.1; rw [hg] at this; exact this)
      · cases hr
    · cases hr

/-- The list `tolist` returns after a program: shape and elements. -/
def srcList (R : Runtime V) (chk : SWorld V → Bool) (cs : List (Call V)) (a : Nat) : Option (List Int × List V) := do
  let s ← srcRun R chk Src.init cs
  match Src.step R s (.tolist a) with
  | .ok (.list l, _) => some (shapeOf l, leaves l)
  | _ => none

/-- How the last call of a program ends. -/
def srcLast (R : Runtime V) (chk : SWorld V → Bool) (cs : List (Call V)) (c : Call V) : Option SErr := do
  let s ← srcRun R chk Src.init cs
  match Src.step R s c with
  | .ok _ => none
  | .error e => some e

/-- A Python run time over integers and fractions. -/
def pyRun : Runtime (Sem.Py Rat) := ⟨pyFrac, .python, Sem.pyNum Sem.rat, fun _ => "0a".toList, fun _ sch => threads sch⟩

theorem pyRun_ok : pyRun.OK := ⟨by decide, fun _ => (by decide : ∀ c ∈ "0a".toList, c ∈ "0123456789abcdef".toList), fun _ _ => .refl _⟩

theorem pyRun_suits (g : Graph (Sem.Py Rat)) (a : Nat) : Suits pyRun g a := C64_suits_python Sem.rat (.int 0) rfl rfl rfl g a


/-- Texts run: the quotients, with a row of zeros above; a row adding up to zero is a division by zero. -/
example : pyRun.OK ∧ Faithful pyRun.b ∧ Sem.IntLaws pyRun.L pyRun.N ∧
    (∀ cs s, srcRun pyRun (fun _ => true) Src.init cs = some s → SReachable pyRun s) ∧
    srcList pyRun (fun _ => true) (fracProg ++ [.materialize 4]) 4 = some ([3, 2], [.int 0, .int 0, .flt (2 / 7), .flt (5 / 7), .flt (3 / 2), .flt (-1 / 2)]) ∧
    srcLast pyRun (fun _ => true) [.array (.node [.node [.leaf (.int 1), .leaf (.int (-1))]]), .sum 0 (.int 1) true, .bin .truediv 0 1] (.materialize 3) = some (.fault .arith) := by
  refine ⟨pyRun_ok, pythonBackend_faithful _, Sem.py_int _, fun cs s h => ?_, by decide +kernel, by decide +kernel⟩
  exact srcRun_runs pyRun_ok (pythonBackend_faithful _) (Sem.py_int _) (fun _ _ _ _ _ _ _ _ => pyRun_suits _ _) .refl h

/-- C and CUDA run times over 64-bit integers; the threads of a launch run last first. -/
noncomputable def cRun (isGpu : Bool) : Runtime (Sem.CVal Rat Rat) := ⟨cInts isGpu, if isGpu then .cuda else .clang, Sem.cNum isGpu ratC, fun _ => "0a".toList, fun _ sch => (threads sch).reverse⟩

theorem cRun_ok (isGpu : Bool) : (cRun isGpu).OK :=
  ⟨by cases isGpu <;> decide, fun _ => (by decide : ∀ c ∈ "0a".toList, c ∈ "0123456789abcdef".toList), fun _ _ => List.reverse_perm _⟩

/-- All arrays have 64-bit integers. -/
def int64s (s : SWorld (Sem.CVal Rat Rat)) : Bool := s.w.g.all fun n => decide (n.dtype = .int64) && (n.val.getD []).all fun v => match v with
  | .i64 i => decide (Int64 i)
  | _ => false

theorem cRun_suits (isGpu : Bool) {s : SWorld (Sem.CVal Rat Rat)} {w : World (Sem.CVal Rat Rat)} {a : Nat} (hr : Reachable (cRun isGpu).b w) (hg : s.w.g = w.g)
    (hc : int64s s = true) (ha : Computed w.g a) (hns : NoScalarReshape w.g a) : Suits (cRun isGpu) w.g a := by
  have hf : Faithful (cRun isGpu).b := demoBackend_faithful _ _ _ _
  have hel : ∀ i : Int, Int64 i → Sem.Elem (cRun isGpu).L (cRun isGpu).N .int64 (.i64 i) := by
    intro i hi
    cases isGpu <;> exact if_pos hi
  refine suits_c isGpu ratC (cRun_ok isGpu) hf (by cases isGpu <;> decide) rfl (dt := .int64) (junk := .i64 77) rfl (hel 77 (by decide)) hr ha hns fun i hi => ?_
  unfold int64s at hc
  rw [hg, List.all_eq_true] at hc
  have hlt : i < w.g.length := Nat.lt_of_le_of_lt (hi.le (hr.inv hf).winv.wf ha.1) ha.1
  have := hc _ (nd_mem hlt)
  rw [Bool.and_eq_true] at this
  refine ⟨of_decide_eq_true this.1, fun l hl v hv => ?_⟩
  have h2 := this.2
  rw [hl, Option.getD_some, List.all_eq_true] at h2
  have h3 := h2 v hv
  cases v <;> simp only [Bool.false_eq_true] at h3
  exact hel _ (of_decide_eq_true h3)

/-- The same in C and on the GPU. -/
example : (∀ g, (cRun g).OK ∧ Faithful (cRun g).b ∧ Sem.IntLaws (cRun g).L (cRun g).N ∧ ∀ cs s, srcRun (cRun g) int64s Src.init cs = some s → SReachable (cRun g) s) ∧
    srcList (cRun false) int64s (intsProg ++ [.materialize 2]) 2 = some ([3, 2], [.i64 1, .i64 16, .i64 4, .i64 25, .i64 9, .i64 36]) ∧
    srcList (cRun true) int64s (intsProg ++ [.sum 2 .none false, .materialize 3]) 3 = some ([], [.i64 91]) ∧
    srcLast (cRun false) int64s [.array (.node [.leaf (.i64 4000000000)]), .bin .mul 0 0] (.materialize 1) = some (.fault .arith) := by
  refine ⟨fun g => ?_, by decide +kernel, by decide +kernel, by decide +kernel⟩
  have hf : Faithful (cRun g).b := demoBackend_faithful _ _ _ _
  have hI : Sem.IntLaws (cRun g).L (cRun g).N := Sem.c_int (by cases g <;> decide) _ _
  exact ⟨cRun_ok g, hf, hI, fun cs s h => srcRun_runs (cRun_ok g) hf hI (fun s w a hr hm hc ha hns => cRun_suits g hr (by rw [hm.same]) hc ha hns) .refl h⟩

end Whale.Props
