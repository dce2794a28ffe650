import Verif.Proofs.CrashCollectB
import Verif.Props.CrashGpu
import Verif.Props.Collect
/-
Garbage collection in programs whose `materialize` is interrupted (C74).
-/
namespace Whale.Props
open Whale Mat Hist
variable {V : Type}

/-- C74: collection is invisible also to programs that catch exceptions raised in the middle of `materialize` or `backward`.  For every such program run under garbage collection there is the same
program run without any, with the same interruptions: the same arrays exist, everything that has not been collected is the same, the same arrays are incomplete, the device has done the same work in
the same order except for `free`s, the next call on arrays the program still refers to returns the same or raises the same exception, and it can be interrupted in the same places. -/
theorem C74_invisible {b : Backend V} (hb : Faithful b) {w : World V} {R G D : List Nat} (hr : ReachableGX b w R G D) :
    ∃ v, ReachableXOn b v D ∧ v.g = w.g ∧ (∀ i, i ∉ G → v.cpu i = w.cpu i ∧ v.dev i = w.dev i ∧ v.grad i = w.grad i) ∧ v.cache = w.cache ∧ v.hits = w.hits ∧ v.hist = w.hist ∧ v.tmp = w.tmp ∧
      v.tick = w.tick ∧ v.ev.filter (fun | .free _ => false | _ => true) = w.ev.filter (fun | .free _ => false | _ => true) ∧
      (∀ c : Call V, (∀ a ∈ c.arrays, a ∈ R) → ArgsOK b w c ∨ Call.atomic c → (step b w c).map Prod.fst = (step b v c).map Prod.fst) ∧
      ∀ a ∈ R, ArgsOK b w (.materialize a) → ∀ d w', Interrupted b w a d w' → ∃ v', Interrupted b v a d v' ∧ ∀ i, Live w R i → v'.cpu i = w'.cpu i ∧ v'.dev i = w'.dev i := by
  obtain ⟨v, _, s, _⟩ := hr.sim hb (SimX.init b)
  have ha := s.agree
  have cw := s.core hb
  have haP := ha.mono s.sub
  have hcl := live_wclX cw R
  refine ⟨v, s.reach, by rw [ha.same], fun i hi => ⟨ha.cpu i hi, ha.dev i hi, ha.grad i hi⟩, by rw [ha.same], by rw [ha.same], by rw [ha.same], by rw [ha.same], by rw [ha.same], ha.ev,
    fun c hc hok => ?_, fun a haR hok d w' hi => ?_⟩
  · have rel := agree_stepX (b := b) cw haP hcl (c := c) (fun a ha => .inl (.root (hc a ha))) (fun a e => by
      subst e
      rcases hok with h | h
      · exact h.1
      · cases h)
    cases h1 : step b w c <;> cases h2 : step b v c <;> rw [h1, h2] at rel <;> simp only [RelE] at rel
    · simp [Except.map, rel]
    · simp [Except.map, rel.1]
  · obtain ⟨v', e, a', _⟩ := agree_interrupted haP cw.wf hi (s.held a haR) hok.1 (hcl.toCl.reachAll cw.wf (s.held a haR) (.inl (.root haR)))
    exact ⟨v', e, fun i hl => ⟨a'.cpu i (.inl hl), a'.dev i (.inl hl)⟩⟩

/-- C74: nothing is used after it was collected, even if a call is interrupted: a collected array is not alive and never becomes alive again, it has no host data, no device memory and no gradient,
and no call, completed or interrupted, ever gives it any again. -/
theorem C74_dead {b : Backend V} (hb : Faithful b) {w w' : World V} {R G D R' G' D' : List Nat} (hr : ReachableGX b w R G D) (h : RunsGX b w R G D w' R' G' D') {i : Nat} (hi : i ∈ G) :
    ¬ Live w' R' i ∧ w'.cpu i = none ∧ w'.dev i = none ∧ w'.grad i = none := by
  obtain ⟨v, _, s, _⟩ := hr.sim hb (SimX.init b)
  obtain ⟨v', _, s', hsub⟩ := h.sim hb s
  exact ⟨(s'.dead i (hsub hi)).2, s'.gone i (hsub hi)⟩

/-- C74: an array the program refers to whose own computation was not interrupted is never read back wrongly, whatever was interrupted and collected. -/
theorem C74_safe {b : Backend V} (hb : Faithful b) {w : World V} {R G D : List Nat} (hr : ReachableGX b w R G D) {a : Nat} (ha : a ∈ R) (hD : base w.g a ∉ D) (hno : NoOffsetReshape w.g a)
    {o : Out V} {w' : World V} (hs : step b w (.tolist a) = .ok (o, w')) : o = .list (value b w a).toNested := by
  obtain ⟨v, _, s, _⟩ := hr.sim hb (SimX.init b)
  have rel := agree_stepX (b := b) (s.core hb) (s.agree.mono s.sub) (live_wclX (s.core hb) R) (c := .tolist a) (fun x hx => .inl (.root (by simp [Call.arrays] at hx; rw [hx]; exact ha)))
    (fun _ e => by cases e)
  rw [hs] at rel
  obtain ⟨⟨o', v'⟩, hsv, rfl, _⟩ := rel.ok
  have hg := s.agree.graph
  have hval : value b v a = value b w a := by unfold value; rw [hg]
  rw [← hval]
  cases hgpu : b.isGpu with
  | true => exact C51_safe_gpu hb hgpu (s.reach.gpu hgpu) (by rw [hg]; exact hD) (by rw [hg]; exact hno) hsv
  | false => exact (C51_safe hb hgpu (s.reach.cpu hgpu) (by rw [hg]; exact s.held a ha) (by rw [hg]; exact hD) (by rw [hg]; exact hno) hsv).1

/-- C74: materializing (again) an array the program refers to succeeds after any history, and from then on, whatever is called, interrupted, dropped or collected: as long as the program refers to
the array, it is read back as its value. -/
theorem C74_recover {b : Backend V} (hb : Faithful b) {w : World V} {R G D : List Nat} (hr : ReachableGX b w R G D) {a : Nat} (ha : a ∈ R) (hargs : ArgsOK b w (.materialize a))
    (hno : NoOffsetReshape w.g a) : ∃ w2, step b w (.materialize a) = .ok (.unit, w2) ∧
      ∀ w3 R3 G3 D3, RunsGX b w2 R G (D.filter (· ≠ base w.g a)) w3 R3 G3 D3 → a ∈ R3 → ∃ w4, step b w3 (.tolist a) = .ok (.list (value b w a).toNested, w4) := by
  obtain ⟨v, _, s, _⟩ := hr.sim hb (SimX.init b)
  have hg := s.agree.graph
  have hav : a < v.g.length := by rw [hg]; exact s.held a ha
  have hargsv : ArgsOK b v (.materialize a) := hargs.agree s.agree
  have hnov : NoOffsetReshape v.g a := by rw [hg]; exact hno
  have hval : value b v a = value b w a := by unfold value; rw [hg]
  have hrec : ∃ v2, step b v (.materialize a) = .ok (.unit, v2) ∧
      ∀ v3 D3, RunsXOn b v2 (D.filter (· ≠ base w.g a)) v3 D3 → ∃ v4, step b v3 (.tolist a) = .ok (.list (value b w a).toNested, v4) := by
    cases hgpu : b.isGpu with
    | true =>
      obtain ⟨v2, e, k⟩ := C51_recover_gpu hb hgpu (s.reach.gpu hgpu) hav hargsv hnov
      rw [hg, hval] at k
      exact ⟨v2, e, fun v3 D3 h => k v3 D3 (by unfold RunsXOn at h; rwa [if_pos hgpu] at h)⟩
    | false =>
      obtain ⟨v2, e, k⟩ := C51_recover hb hgpu (s.reach.cpu hgpu) hav hargsv hnov
      rw [hg, hval] at k
      exact ⟨v2, e, fun v3 D3 h => ⟨v3, k v3 D3 (by unfold RunsXOn at h; rwa [if_neg (by simp [hgpu])] at h)⟩⟩
  obtain ⟨v2, e2, hlater⟩ := hrec
  have hone : ∀ x ∈ (Call.materialize a : Call V).arrays, x ∈ R := fun x hx => by simp [Call.arrays] at hx; rw [hx]; exact ha
  have rel := agree_stepX (b := b) (s.core hb) (s.agree.mono s.sub) (live_wclX (s.core hb) R) (c := .materialize a) (fun x hx => .inl (.root (hone x hx))) (fun _ h => by cases h; exact hargs.1)
  rw [e2] at rel
  cases hw : step b w (.materialize a) with
  | error x => rw [hw] at rel; exact absurd rel (by simp [RelE])
  | ok p =>
    obtain ⟨o, w2⟩ := p
    rw [hw] at rel
    obtain ⟨ho, hag⟩ := rel
    simp only at ho
    subst ho
    refine ⟨w2, rfl, fun w3 R3 G3 D3 h3 ha3 => ?_⟩
    have s2' : SimX b w2 R G (D.filter (· ≠ base w.g a)) v2 := by
      have hrun : RunsXOn b v D v2 (D.filter (· ≠ base w.g a)) := by
        have := RunsXOn.call (D1 := D) (c := .materialize a) (RunsXOn.refl (b := b) (w := v) (D := D)) hargsv (fun _ _ h => by cases h) e2
        simp only [repaired, hg] at this; exact this
      have k1 := cl_stepX (s.core hb) (live_wclX (s.core hb) R) (fun x hx => .inl (.root (hone x hx))) hargs _ hw
      have k2 := cl_stepX (s.reach.core hb) ((s.agree.mono s.sub).wcl (live_wclX (s.core hb) R)) (fun x hx => .inl (.root (hone x hx))) hargsv _ e2
      have hx : Ext w.g w2.g := by
        have := hrun.ext hb s.reach
        rwa [hg, hag.graph] at this
      exact s.next hb (RunsXOn.trans s.reach hrun) hx hag k1.2.out k2.2.out (fun i hi => Nat.lt_of_lt_of_le (s.held i hi) hx.length)
        (fun i hl => k1.2.live (fun i h => inputs_lt_length i h) (fun j hj => .inl (.root hj)) hl) (step_emits (s.core hb).wf (s.core hb).nn (s.core hb).gs (fun _ h => by cases h) hw)
        (step_emits (s.reach.core hb).wf (s.reach.core hb).nn (s.reach.core hb).gs (fun _ h => by cases h) e2)
    obtain ⟨v3, hv3, s3, _⟩ := h3.sim hb s2'
    obtain ⟨v4, e4⟩ := hlater v3 D3 hv3
    have rel := agree_stepX (b := b) (s3.core hb) (s3.agree.mono s3.sub) (live_wclX (s3.core hb) R3) (c := .tolist a) (fun x hx => .inl (.root (by simp [Call.arrays] at hx; rw [hx]; exact ha3)))
      (fun _ h => by cases h)
    rw [e4] at rel
    cases h4 : step b w3 (.tolist a) with
    | error x => rw [h4] at rel; exact absurd rel (by simp [RelE])
    | ok p =>
      obtain ⟨o, w4⟩ := p
      rw [h4] at rel
      obtain ⟨ho, _⟩ := rel
      simp only at ho
      subst ho
      exact ⟨w4, rfl⟩

/-- C74: the device memory discipline (GPU backends) with interruptions and collections: every device operation is legitimate after the ones before it, so nothing is used after it was freed, freed
twice, or allocated while it is allocated, kernels read only memory that was copied in or computed; and the device memory that is allocated belongs to arrays that have not been collected (the memory
an interrupted call left behind is freed with its array). -/
theorem C74_discipline {b : Backend V} (hb : Faithful b) (hg : b.isGpu = true) {w : World V} {R G D : List Nat} (hr : ReachableGX b w R G D) :
    DevTraceOK w.ev ∧ (∀ i, Allocated w.ev i ↔ (w.dev i).isSome) ∧ ∀ i ∈ G, ¬ Allocated w.ev i := by
  obtain ⟨v, _, s, _⟩ := hr.sim hb (SimX.init b)
  have ht := s.trace hg
  refine ⟨ht.ok, fun i => ?_, ht.gone⟩
  by_cases hG : i ∈ G
  · rw [(s.gone i hG).2.1]
    exact ⟨fun h => absurd h (ht.gone i hG), fun h => by cases h⟩
  · rw [ht.allocated hG, ← ((s.reach.gpu hg).inv hb hg).data.ev.dev i, s.agree.dev i hG]

theorem live_collect {w : World V} {R : List Nat} {j : Nat} (hj : ¬ Live w R j) {i : Nat} : Live (w.collect j) R i ↔ Live w R i := by
  refine ⟨Live.of_collect, fun h => ?_⟩
  induction h with
  | root hm => exact .root hm
  | input _ hx ih => exact .input ih hx
  | @grad i k hi hk ih =>
    refine .grad ih ?_
    have : i ≠ j := by rintro rfl; exact hj hi
    simp only [World.collect, if_neg this]; exact hk

theorem collect_dead {b : Backend V} {w : World V} {R G D : List Nat} (n : Nat) (hn : n ≤ w.g.length) :
    ∃ w' G', RunsGX b w R G D w' R G' D ∧ w'.g = w.g ∧ (∀ i, Live w' R i ↔ Live w R i) ∧ (∀ i, i < n → ¬ Live w R i → i ∈ G') ∧
      ∀ i, Live w R i → w'.cpu i = w.cpu i ∧ w'.dev i = w.dev i ∧ w'.grad i = w.grad i := by
  induction n with
  | zero => exact ⟨w, G, .refl, rfl, fun _ => .rfl, fun i hi => absurd hi (by omega), fun _ _ => ⟨rfl, rfl, rfl⟩⟩
  | succ n ih =>
    obtain ⟨w1, G1, h1, hg, hl, hd, hk⟩ := ih (by omega)
    by_cases hn' : Live w R n ∨ n ∈ G1
    · refine ⟨w1, G1, h1, hg, hl, fun i hi hdead => ?_, hk⟩
      by_cases e : i = n
      · subst e; exact hn'.resolve_left hdead
      · exact hd i (by omega) hdead
    · rw [not_or] at hn'
      have hdead : ¬ Live w1 R n := fun h => hn'.1 ((hl n).1 h)
      refine ⟨w1.collect n, n :: G1, .collect h1 (by rw [hg]; omega) hdead hn'.2, hg, fun i => (live_collect hdead).trans (hl i), fun i hi hdi => ?_, fun i hi => ?_⟩
      · by_cases e : i = n
        · subst e; exact List.mem_cons_self
        · exact List.mem_cons_of_mem _ (hd i (by omega) hdi)
      · have : i ≠ n := by rintro rfl; exact hn'.1 hi
        simp only [World.collect, if_neg this]; exact hk i hi

/-- C74: nothing leaks (GPU backends).  Whatever was interrupted, the interpreter can at any time collect everything that is not alive; what is alive keeps its data, and then all device memory that
is allocated belongs to arrays that are alive.  In particular none is left when the program has dropped all its references. -/
theorem C74_noleak {b : Backend V} (hb : Faithful b) (hg : b.isGpu = true) {w : World V} {R G D : List Nat} (hr : ReachableGX b w R G D) :
    ∃ w' G', RunsGX b w R G D w' R G' D ∧ (∀ i, Live w R i → w'.cpu i = w.cpu i ∧ w'.dev i = w.dev i ∧ w'.grad i = w.grad i) ∧ (∀ i, Allocated w'.ev i → Live w' R i ∧ Live w R i) ∧
      (R = [] → ∀ i, ¬ Allocated w'.ev i) := by
  obtain ⟨w', G', h, hgr, hl, hd, hk⟩ := collect_dead (b := b) (w := w) (R := R) (G := G) (D := D) w.g.length (Nat.le_refl _)
  obtain ⟨v, _, s, _⟩ := hr.sim hb (SimX.init b)
  obtain ⟨v', _, s', _⟩ := h.sim hb s
  have ht := s'.trace hg
  have key : ∀ i, Allocated w'.ev i → Live w R i := by
    intro i ha
    have hG : i ∉ G' := fun hm => ht.gone i hm ha
    have hi := ((s'.reach.gpu hg).inv hb hg).data
    obtain ⟨l, hl'⟩ := Option.isSome_iff_exists.1 ((hi.ev.dev i).2 ((ht.allocated hG).1 ha))
    have hlt : i < w.g.length := by
      have := (hi.dev i l hl').1
      rwa [s'.agree.graph, hgr] at this
    exact Classical.byContradiction fun hn => hG (hd i hlt hn)
  refine ⟨w', G', h, hk, fun i ha => ⟨(hl i).2 (key i ha), key i ha⟩, fun hR i ha => ?_⟩
  subst hR
  have hno : ∀ i, ¬ Live w [] i := fun i hl => by
    induction hl with
    | root hm => cases hm
    | input _ _ ih => exact ih
    | grad _ _ ih => exact ih
  exact hno i (key i ha)

/-! ### Demonstration: `a = array([[1,2,3],[4,5,6]]); b = a.sum(1, keepdims); c = a - b`; `c.materialize()` is interrupted in its second kernel; the program catches the exception, makes `d = -c`,
drops everything but `c`, the interpreter collects `d`, and `c` is materialized again. -/

namespace GxDemo

/-- What the program and the interpreter do. -/
inductive Act
  | call (c : Call Int)
  | drop (R : List Nat)
  | collect (i : Nat)
  | crash (a k j : Nat)

/-- World, references, collected arrays, incomplete arrays. -/
abbrev St := World Int × List Nat × List Nat × List Nat

/-- The call does not read an incomplete array. -/
def readOK (s : St) : Call Int → Bool
  | .tolist a => decide (base s.1.g a ∉ s.2.2.2)
  | _ => true

def act (b : Backend Int) (s : St) : Act → Option St
  | .call c => if c.arrays.all (· ∈ s.2.1) && argsOKb b s.1 c && readOK s c then match step b s.1 c with
    | .ok (o, w') => some (w', held s.2.1 o, s.2.2.1, repaired s.1 s.2.2.2 c)
    | .error _ => none
    else none
  | .drop R => if R.all (· ∈ s.2.1) then some (s.1, R, s.2.2) else none
  | .collect i => if decide (i < s.1.g.length) && Demo.closedB s.1 (Demo.liveSet s.1 s.2.1) && s.2.1.all (· ∈ Demo.liveSet s.1 s.2.1) && !decide (i ∈ Demo.liveSet s.1 s.2.1) && !decide (i ∈ s.2.2.1) then
      some (s.1.collect i, s.2.1, i :: s.2.2.1, s.2.2.2) else none
  | .crash a k j => if decide (a ∈ s.2.1) && argsOKb b s.1 (.materialize a) then (crashAt b s.1 a k j).map fun p => (p.2, s.2.1, s.2.2.1, spoiledOn b s.1 s.2.2.2 (some p.1)) else none

def acts (b : Backend Int) (s : St) : List Act → Option St
  | [] => some s
  | a :: as => (act b s a).bind fun s' => acts b s' as

theorem act_sound {b : Backend Int} (hb : Faithful b) {s s' : St} (h : ReachableGX b s.1 s.2.1 s.2.2.1 s.2.2.2) {a : Act} (ha : act b s a = some s') :
    ReachableGX b s'.1 s'.2.1 s'.2.2.1 s'.2.2.2 := by
  obtain ⟨v, _, i1, _⟩ := h.sim hb (SimX.init b)
  have cw := i1.core hb
  cases a with
  | call c =>
    simp only [act] at ha
    split at ha
    · rename_i hc
      simp only [Bool.and_eq_true, List.all_eq_true, decide_eq_true_eq] at hc
      obtain ⟨⟨h1, h2⟩, h3⟩ := hc
      split at ha
      · rename_i o w' hs
        cases ha
        exact .call h h1 (argsOKb_sound (fun a ha => i1.held a (h1 a ha)) cw.wf h2) (fun _ a e => by subst e; exact of_decide_eq_true h3) hs
      · cases ha
    · cases ha
  | drop R =>
    simp only [act] at ha
    split at ha
    · rename_i hc
      simp only [List.all_eq_true, decide_eq_true_eq] at hc
      cases ha; exact .drop h hc
    · cases ha
  | collect i =>
    simp only [act] at ha
    split at ha
    · rename_i hc
      simp only [Bool.and_eq_true, List.all_eq_true, decide_eq_true_eq, Bool.not_eq_true', decide_eq_false_iff_not] at hc
      obtain ⟨⟨⟨⟨h1, h2⟩, h3⟩, h4⟩, h5⟩ := hc
      cases ha
      exact .collect h h1 (fun hl => h4 (Demo.closedB_sound h2 h3 hl)) h5
    · cases ha
  | crash a k j =>
    simp only [act] at ha
    split at ha
    · rename_i hc
      simp only [Bool.and_eq_true, decide_eq_true_eq] at hc
      obtain ⟨p, hp, rfl⟩ := Option.map_eq_some_iff.1 ha
      exact .crash h hc.1 (argsOKb_sound (by simpa [Call.arrays] using i1.held a hc.1) cw.wf hc.2) (crashAt_interrupted hp)
    · cases ha

theorem acts_sound {b : Backend Int} (hb : Faithful b) {as : List Act} {s s' : St} (h : ReachableGX b s.1 s.2.1 s.2.2.1 s.2.2.2) (ha : acts b s as = some s') :
    ReachableGX b s'.1 s'.2.1 s'.2.2.1 s'.2.2.2 := by
  induction as generalizing s with
  | nil => cases ha; exact h
  | cons a as ih =>
    simp only [acts] at ha
    cases e : act b s a with
    | none => rw [e] at ha; cases ha
    | some s1 => rw [e] at ha; exact ih (act_sound hb h e) ha

/-- The program up to the collection. -/
def prog : List Act := [.call (.array Demo.m23), .call (.sum 0 (.tuple [1]) true), .call (.bin .sub 0 1), .crash 3 1 3, .call (.un .neg 3), .drop [3], .collect 4]

def after (b : Backend Int) (as : List Act) : St := (acts b (Mat.init, [], [], []) as).getD (Mat.init, [], [], [])

theorem after_reach {b : Backend Int} (hb : Faithful b) {as : List Act} (h : (acts b (Mat.init, [], [], []) as).isSome = true) :
    ReachableGX b (after b as).1 (after b as).2.1 (after b as).2.2.1 (after b as).2.2.2 := by
  obtain ⟨s, hs⟩ := Option.isSome_iff_exists.1 h
  have e : after b as = s := by unfold after; rw [hs]; rfl
  rw [e]
  exact acts_sound (s := (Mat.init, [], [], [])) hb .refl hs

end GxDemo

open GxDemo in
/-- After the interruption and the collection array 3 is incomplete and array 4 is gone; on CUDA, array 3 can be materialized and read back right, also when its second computation is interrupted after
it was right (the hypotheses of the four theorems are met). -/
example : ReachableGX Demo.cuda (after Demo.cuda prog).1 (after Demo.cuda prog).2.1 (after Demo.cuda prog).2.2.1 (after Demo.cuda prog).2.2.2 :=
  after_reach Demo.cuda_faithful (by decide +kernel)

open GxDemo in
example : (after Demo.cuda prog).2.1 = [3] ∧ (after Demo.cuda prog).2.2.1 = [4] ∧ (after Demo.cuda prog).2.2.2 = [3] ∧ argsOKb Demo.cuda (after Demo.cuda prog).1 (.materialize 3) = true ∧
    ((after Demo.cuda prog).1.dev 3).isSome = true := by
  refine ⟨?_, ?_, ?_, ?_, ?_⟩ <;> decide +kernel

open GxDemo in
example : (after Demo.cuda (prog ++ [.call (.materialize 3), .crash 3 1 2])).2.2.2 = [] ∧
    Demo.listOfW Demo.cuda (after Demo.cuda (prog ++ [.call (.materialize 3), .crash 3 1 2])).1 3 = some ([2, 3], [-5, -4, -3, -11, -10, -9]) := by
  refine ⟨?_, ?_⟩ <;> decide +kernel

/-- The same interruption, but the program drops everything except the matrix, and arrays 4 and 3 are collected. -/
def GxDemo.prog2 : List GxDemo.Act := [.call (.array Demo.m23), .call (.sum 0 (.tuple [1]) true), .call (.bin .sub 0 1), .crash 3 1 3, .call (.un .neg 3), .drop [0], .collect 4, .collect 3]

open GxDemo in
/-- The hypotheses of `C74_discipline` are met, and the trace is as it says: the memory of the half-computed array 3 is freed with it, that of the sum (array 1, not yet collected) and of the matrix is not. -/
example : ReachableGX Demo.cuda (after Demo.cuda prog2).1 (after Demo.cuda prog2).2.1 (after Demo.cuda prog2).2.2.1 (after Demo.cuda prog2).2.2.2 ∧ (after Demo.cuda prog2).2.2.1 = [3, 4] ∧
    (after Demo.cuda prog2).1.ev = [.alloc 1 2, .alloc 0 6, .copyIn 0, .launch 1 [0], .alloc 3 6, .copyIn 0, .launch 3 [0, 1], .free 3] := by
  refine ⟨after_reach Demo.cuda_faithful (by decide +kernel), ?_, ?_⟩ <;> decide +kernel

open GxDemo in
/-- The half-computed array dropped together with everything else: the interpreter frees all device memory, as `C74_noleak` says. -/
example : ReachableGX Demo.cuda (after Demo.cuda (prog2 ++ [.drop []])).1 [] [3, 4] [3] ∧ (after Demo.cuda (prog2 ++ [.drop [], .collect 0, .collect 2, .collect 1])).1.ev =
    [.alloc 1 2, .alloc 0 6, .copyIn 0, .launch 1 [0], .alloc 3 6, .copyIn 0, .launch 3 [0, 1], .free 3, .free 0, .free 1] := by
  refine ⟨?_, by decide +kernel⟩
  have h := after_reach Demo.cuda_faithful (as := prog2 ++ [.drop []]) (by decide +kernel)
  have e1 : (after Demo.cuda (prog2 ++ [.drop []])).2.1 = [] := by decide +kernel
  have e2 : (after Demo.cuda (prog2 ++ [.drop []])).2.2.1 = [3, 4] := by decide +kernel
  have e3 : (after Demo.cuda (prog2 ++ [.drop []])).2.2.2 = [3] := by decide +kernel
  rwa [e1, e2, e3] at h

open GxDemo in
/-- The same program in Python: the incomplete array reads as half zeros, and right after it was materialized again. -/
example : ReachableGX Demo.py (after Demo.py prog).1 (after Demo.py prog).2.1 (after Demo.py prog).2.2.1 (after Demo.py prog).2.2.2 :=
  after_reach Demo.py_faithful (by decide +kernel)

open GxDemo in
example : (after Demo.py prog).2.1 = [3] ∧ (after Demo.py prog).2.2.1 = [4] ∧ (after Demo.py prog).2.2.2 = [3] ∧ argsOKb Demo.py (after Demo.py prog).1 (.materialize 3) = true := by
  refine ⟨?_, ?_, ?_, ?_⟩ <;> decide +kernel

open GxDemo in
example : Demo.listOfW Demo.py (after Demo.py prog).1 3 = some ([2, 3], [-5, -4, -3, 0, 0, 0]) ∧
    Demo.listOfW Demo.py (after Demo.py (prog ++ [.call (.materialize 3)])).1 3 = some ([2, 3], [-5, -4, -3, -11, -10, -9]) := by
  refine ⟨?_, ?_⟩ <;> decide +kernel

end Whale.Props
