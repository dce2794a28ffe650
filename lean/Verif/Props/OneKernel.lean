import Verif.Proofs.OneKernel
import Verif.Props.EndToEnd
/-
C57: sessions that never meet a cache-key collision, described without reference to generated code.

The other theorems assume of `materialize()` that the kernels to be launched and the kernels launched before with the same cache key have the same code (`NoCollision` in `ArgsOK`):
without this assumption they are false (C25).  Here the assumption is discharged for the programs that only materialize arrays computed without `pad` and `dilate`, with at most one,
final, `sum`, and whose intermediate results are used once.
-/
namespace Whale.Props
open Whale Hist Mat
variable {V : Type}

/-- C57: every session with simple arguments is a legal session: in particular no cache keys collide, whatever was materialized before, in whatever order and number. -/
theorem C57_no_collision {b : Backend V} (hb : Faithful b) {w : World V} (h : ReachableSimple b w) :
    Reachable b w ∧ ∀ a, a < w.g.length → ArgsSimple b w (.materialize a) → NoCollision (w.log ++ launchLog b.isGpu w.g a) ∧ ArgsOK b w (.materialize a) := by
  obtain ⟨hr, _, hk⟩ := h.facts hb
  refine ⟨hr, fun a ha hs => ?_⟩
  have := hk (.materialize a) (by simpa [Call.arrays] using ha) hs
  exact ⟨this.2.1, this⟩

theorem _root_.Whale.TracksSimple.simple {b : Backend V} {w : World V} {H : List (Nat × Tensor V)} (h : TracksSimple b w H) : ReachableSimple b w := by
  induction h with
  | init => exact .init
  | returns ρ _ ha _ hs _ ih => exact .call ih (.inr ha) (by unfold next; rw [hs])
  | other _ hl hn ih => exact .call ih hl hn
  | stopped _ hy ha hs ih => exact .stopped ih hy ha hs

theorem _root_.Whale.TracksSimple.tracks {b : Backend V} (hb : Faithful b) {w : World V} {H : List (Nat × Tensor V)} (h : TracksSimple b w H) : Tracks b w H := by
  induction h with
  | init => exact .init
  | @returns w w' H c r T ρ h0 ha hm hs hT ih =>
    refine .returns ρ ih ((h0.simple.facts hb).2.2 c ?_ ha) hm hs hT
    unfold step at hs
    split at hs
    · assumption
    · cases hs
  | @other w w' H c h0 hl hn ih =>
    refine .other ih ?_ hn
    cases hs : step b w c with
    | error e => exact .inl ⟨e, hs⟩
    | ok p =>
      rcases hl with ⟨e, he⟩ | ha
      · rw [hs] at he; cases he
      · refine .inr ((h0.simple.facts hb).2.2 c ?_ ha)
        unfold step at hs
        split at hs
        · assumption
        · cases hs
  | stopped h0 hy ha hs ih => exact .stopped ih hy ha hs

/-- C57: run any program that materializes only such arrays.  Every array that a call returned is the tensor that the reference semantics gives for that call, and materializing a
further such array and reading it returns that tensor; nothing is assumed about generated code or about the cache.  (`NoOffsetReshape` excludes the defect of
`C09_counterexample`: reading a reshape of a view with an offset.) -/
theorem C57_compiler_correct {b : Backend V} (hb : Faithful b) {w : World V} {H : List (Nat × Tensor V)} (h : TracksSimple b w H) {a : Nat} {T : Tensor V} (ha : (a, T) ∈ H) :
    Is b w a T ∧ (ArgsSimple b w (.materialize a) → NoOffsetReshape w.g a →
      ∃ w1 w2, step b w (.materialize a) = .ok (.unit, w1) ∧ step b w1 (.tolist a) = .ok (.list T.toNested, w2)) := by
  have his := C19_compiler_correct hb (h.tracks hb) ha
  refine ⟨his, fun hs hno => ?_⟩
  obtain ⟨w1, e1, h1⟩ := his.computes hno w .refl ((C57_no_collision hb h.simple).2 a his.exists_ hs).2
  obtain ⟨w2, e2⟩ := h1 w1 .refl
  exact ⟨w1, w2, e1, e2⟩

/-! ### concrete case -/

/-- The arrays `a` depends on. -/
def reachL (g : Graph V) : Nat → Nat → List Nat
  | 0, a => [a]
  | fuel + 1, a => a :: (g.ctx a).inputs.flatMap (reachL g fuel)

theorem reachL_sound {g : Graph V} (h : WF g) : ∀ (fuel a i : Nat), a ≤ fuel → a < g.length → Reach g a i → i ∈ reachL g fuel a
  | 0, a, i, hf, ha, hr => by
    rcases hr.cases_input with rfl | ⟨x, hx, _⟩
    · simp [reachL]
    · have := h.inputs_lt ha x hx; omega
  | fuel + 1, a, i, hf, ha, hr => by
    rcases hr.cases_input with rfl | ⟨x, hx, hxi⟩
    · simp [reachL]
    · have := h.inputs_lt ha x hx
      exact List.mem_cons_of_mem _ (List.mem_flatMap.2 ⟨x, hx, reachL_sound h fuel x i (by omega) (by omega) hxi⟩)

/-- Check of `OneKernel`. -/
def oneKernelB (g : Graph V) (a : Nat) : Bool :=
  let R := reachL g a a
  (R.all fun i => match g.ctx i with | .pad .. | .dilate .. => false | .sum .. => i == a | _ => true) &&
  R.all fun i => (g.ctx i).inputs.all fun x => (match g.ctx x with | .const => true | _ => false) ||
    ((g.ctx i).inputs.count x == 1 && R.all fun j => !((g.ctx j).inputs.contains x) || i == j)

theorem oneKernelB_sound {g : Graph V} (h : WF g) {a : Nat} (ha : a < g.length) (hb : oneKernelB g a = true) : OneKernel g a := by
  unfold oneKernelB at hb
  simp only [Bool.and_eq_true, List.all_eq_true] at hb
  obtain ⟨h1, h2⟩ := hb
  have hm : ∀ i, Reach g a i → i ∈ reachL g a a := fun i hi => reachL_sound h a a i (Nat.le_refl _) ha hi
  have h3 : ∀ x, g.ctx x ≠ .const → ∀ i, Reach g a i → x ∈ (g.ctx i).inputs → (g.ctx i).inputs.count x = 1 ∧ ∀ j, Reach g a j → x ∈ (g.ctx j).inputs → i = j := by
    intro x hx i hi hxi
    have := h2 i (hm i hi) x hxi
    rw [Bool.or_eq_true] at this
    rcases this with hc | hc
    · exfalso; revert hc; split
      · rename_i e; intro _; exact hx e
      · intro h; cases h
    · rw [Bool.and_eq_true, List.all_eq_true] at hc
      refine ⟨by simpa using hc.1, fun j hj hxj => ?_⟩
      have := hc.2 j (hm j hj)
      simpa [hxj] using this
  refine ⟨fun i hi hc => ?_, fun i hi hne hs => ?_, fun x hx i j hi hj hxi hxj => (h3 x hx i hi hxi).2 j hj hxj, fun x hx i hi => ?_⟩
  · have := h1 i (hm i hi)
    rcases hc with ⟨_, _, _, _, e⟩ | ⟨_, _, _, e⟩ <;> rw [e] at this <;> cases this
  · have := h1 i (hm i hi)
    obtain ⟨_, _, _, e⟩ := hs
    rw [e] at this
    exact hne (by simpa using this)
  · by_cases hxi : x ∈ (g.ctx i).inputs
    · exact Nat.le_of_eq (h3 x hx i hi hxi).1
    · rw [List.count_eq_zero.2 hxi]; omega

/-- Check of `ArgsSimple`. -/
def argsSimpleB (b : Backend V) (w : World V) : Call V → Bool
  | .materialize a => w.g.all (fun n => !scalarReshapeB n) && oneKernelB w.g (base w.g a) && !b.isGpu
  | c => argsOKb b w c

theorem argsSimpleB_sound {b : Backend V} {w : World V} {c : Call V} (hin : ∀ a ∈ c.arrays, a < w.g.length) (hw : WF w.g) (h : argsSimpleB b w c = true) : ArgsSimple b w c := by
  by_cases hm : ∃ a, c = .materialize a
  case neg => cases c <;> first | exact absurd ⟨_, rfl⟩ hm | exact argsOKb_sound (b := b) hin hw h
  obtain ⟨a, rfl⟩ := hm
  have ha : a < w.g.length := hin a (by simp [Call.arrays])
  have hbl := Nat.lt_of_le_of_lt (base_le hw ha) ha
  simp only [argsSimpleB, Bool.and_eq_true] at h
  obtain ⟨⟨h1, h2⟩, h3⟩ := h
  refine ⟨fun i hi ⟨x, hx⟩ => ?_, oneKernelB_sound hw hbl h2, fun hg => by rw [hg] at h3; cases h3⟩
  have := List.all_eq_true.1 h1 _ (nd_mem (Nat.lt_of_le_of_lt (hi.le hw hbl) hbl))
  have hx' : (w.g.nd i).ctx = .reshape x [] := hx
  simp [scalarReshapeB, hx'] at this

/-- Run a program with simple arguments side by side with its reference semantics. -/
def trackSimpleL (b : Backend V) : World V → List (Nat × Tensor V) → List (Call V) → Option (World V × List (Nat × Tensor V))
  | w, H, [] => some (w, H)
  | w, H, c :: cs =>
    let ρ : Nat → Tensor V := fun a => (H.lookup a).getD ⟨[], fun _ => b.A.ofInt 0⟩
    if argsSimpleB b w c then
      match step b w c with
      | .ok (.arr r, w') => match meaning b.A w.g.dtype ρ c with
        | some T => if c.arrays.all fun a => (H.lookup a).isSome then trackSimpleL b w' ((r, T) :: H) cs else none
        | none => trackSimpleL b w' H cs
      | .ok (_, w') => trackSimpleL b w' H cs
      | .error _ => none
    else none

theorem trackSimpleL_sound {b : Backend V} (hb : Faithful b) {w : World V} {H : List (Nat × Tensor V)} (h0 : TracksSimple b w H) {cs : List (Call V)} {w' : World V}
    {H' : List (Nat × Tensor V)} (h : trackSimpleL b w H cs = some (w', H')) : TracksSimple b w' H' := by
  induction cs generalizing w H with
  | nil => cases h; exact h0
  | cons c cs ih =>
    unfold trackSimpleL at h
    simp only at h
    split at h
    case isFalse => cases h
    rename_i ha
    cases hs : step b w c with
    | error e => rw [hs] at h; cases h
    | ok p =>
      have hok : ArgsSimple b w c := argsSimpleB_sound (by
        unfold step at hs
        split at hs
        · assumption
        · cases hs) ((h0.tracks hb).reachable.inv hb).winv.wf ha
      obtain ⟨o, w1⟩ := p
      rw [hs] at h
      have hother : TracksSimple b w1 H := .other h0 (.inr hok) (by unfold next; rw [hs])
      cases o with
      | arr r =>
        simp only at h
        split at h
        · rename_i T hT
          split at h
          case isFalse => cases h
          rename_i hall
          refine ih (.returns _ h0 hok (fun a haa => ?_) hs hT) h
          have := List.all_eq_true.1 hall a haa
          obtain ⟨U, hU⟩ := Option.isSome_iff_exists.1 this
          simp only [hU, Option.getD_some]
          exact lookup_mem hU
        · exact ih hother h
      | list l => exact ih hother h
      | unit => exact ih hother h

/-- `(-(x * x).T).sum(0)` materialized, the same computation for another data array `y` (same cache key) materialized, `(x - y).reshape(3, 2)` materialized; `x + y`. -/
def simpleProg : List (Call Int) :=
  [.array Demo.m23, .bin .mul 0 0, .T 1, .un .neg 2, .sum 3 (.int 0) false, .materialize 4,
   .array Demo.m23, .bin .mul 5 5, .T 6, .un .neg 7, .sum 8 (.int 0) false, .materialize 9,
   .bin .sub 0 5, .reshape 10 [3, 2], .materialize 11, .bin .add 0 5]

/-- The program is simple: three kernels launched, two of them from the same cache entry; a further array `0 + 5` can be materialized; and what is read is this. -/
example : (∃ w H, TracksSimple Demo.py w H ∧ H.length = 13 ∧ w.log.length = 3 ∧ w.cache.length = 2 ∧ ArgsSimple Demo.py w (.materialize 12)) ∧
    Demo.listOf (simpleProg ++ [.materialize 12]) (.tolist 12) = some ([2, 3], [2, 4, 6, 8, 10, 12]) ∧ Demo.listOf simpleProg (.tolist 9) = some ([2], [-14, -77]) := by
  refine ⟨?_, by decide +kernel, by decide +kernel⟩
  have hl : ((trackSimpleL Demo.py Mat.init [] simpleProg).map fun p => (p.2.length, p.1.log.length, p.1.cache.length, p.1.g.length, argsSimpleB Demo.py p.1 (.materialize 12))) =
      some (13, 3, 2, 13, true) := by decide +kernel
  obtain ⟨⟨w, H⟩, h, hH⟩ := Option.map_eq_some_iff.1 hl
  simp only [Prod.mk.injEq] at hH
  obtain ⟨h1, h2, h3, h4, h5⟩ := hH
  have ht := trackSimpleL_sound Demo.py_faithful .init h
  exact ⟨w, H, ht, h1, h2, h3, argsSimpleB_sound (by simp [Call.arrays, h4]) ((ht.tracks Demo.py_faithful).reachable.inv Demo.py_faithful).winv.wf h5⟩

end Whale.Props
