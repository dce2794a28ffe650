import Verif.Proofs.Congr
import Verif.Proofs.Demo
/-
Properties of `backward`: C29 shapes of gradients, C30 accumulation, C31 no failure, C33 repeated calls, C34 broadcasts to the same shape.
-/
namespace Whale.Props
open Whale Hist Mat
variable {V : Type}

theorem step_backward {b : Backend V} (hb : Faithful b) {w : World V} (hr : Reachable b w) {y : Nat} (hy : y < w.g.length) (hok : BackwardOK w.g y) :
    ∃ w' order, step b w (.backward y) = .ok (.unit, w') ∧ BwdRes b.A w w' y order := by
  have h := hr.inv hb
  obtain ⟨w', order, e, r⟩ := backward_ok b.A h.winv.wf h.nn h.gs hy hok
  exact ⟨w', order, by rw [step_eq (by simpa [Call.arrays] using hy)]; simp only [exec1, e, Except.map], r⟩

/-! ### C29, C31 -/

/-- C29 and C31 as far as they hold: if `y` was built only from operations whose gradient rule is right (`BackwardOK`), then `y.backward()` does not raise, and every array
that `y` was computed from (and `y`) then has a gradient, of its own shape; in fact every gradient there is has the shape of its array.
Missing: `C29_counterexample`, `C29_counterexample_pad`, `C31_counterexample`. -/
theorem C29_shapes_partial {b : Backend V} (hb : Faithful b) {w : World V} (hr : Reachable b w) {y : Nat} (hy : y < w.g.length) (hok : BackwardOK w.g y) :
    ∃ w', step b w (.backward y) = .ok (.unit, w') ∧
      (∀ i, Reach w.g y i → ∃ k, step b w' (.grad i) = .ok (.arr k, w') ∧ k < w'.g.length ∧ w'.g.shape k = w.g.shape i) ∧
      ∀ i k w'', step b w' (.grad i) = .ok (.arr k, w'') → w'.g.shape k = w'.g.shape i := by
  obtain ⟨w', order, e, r⟩ := step_backward hb hr hy hok
  refine ⟨w', e, fun i hi => ?_, fun i k w'' hk => ?_⟩
  · have hil := Nat.lt_of_le_of_lt (hi.le (hr.inv hb).winv.wf hy) hy
    obtain ⟨k, hk⟩ := Option.isSome_iff_exists.1 (r.some i hi)
    have hg := r.step.gs i k hk
    exact ⟨k, by rw [step_eq (by simpa [Call.arrays] using hg.1)]; simp [exec1, hk], hg.2.1, by rw [hg.2.2, r.step.ext.shape hil]⟩
  · have hi : i < w'.g.length := by
      unfold step at hk
      split at hk
      · rename_i hin; exact hin i (by simp [Call.arrays])
      · cases hk
    rw [step_eq (by simpa [Call.arrays] using hi)] at hk
    simp only [exec1] at hk
    cases hg : w'.grad i with
    | none => rw [hg] at hk; cases hk
    | some k' => rw [hg] at hk; cases hk; exact (r.step.gs i k hg).2.2

/-- C31 as far as it holds: `y.backward()` does not raise. -/
theorem C31_total_partial {b : Backend V} (hb : Faithful b) {w : World V} (hr : Reachable b w) {y : Nat} (hy : y < w.g.length) (hok : BackwardOK w.g y) :
    ∃ w', step b w (.backward y) = .ok (.unit, w') :=
  let ⟨w', e, _⟩ := C29_shapes_partial hb hr hy hok
  ⟨w', e⟩

/-- Demonstration: a graph with sharing, a strided slice, a broadcast, a sum, a pad and a dilate. -/
def gdemo : List (Call Int) :=
  [.array Demo.m23, .T 0, .getitem 1 [.slice none none (some 2), .int 1], .sum 0 (.int 1) true, .bin .mul 2 3, .pad 6 0 1 2, .dilate 7 1 2, .bin .sub 8 8]

example : Demo.runs (gdemo ++ [.backward 9]) = true ∧ (Demo.after gdemo).g.length = 10 := by decide +kernel

/-- The world after a program and a final `y.backward()`. -/
def bwd (cs : List (Call Int)) (y : Nat) : World Int := match step Demo.py (Demo.after cs) (.backward y) with
  | .ok (_, w) => w
  | .error _ => Mat.init

/-- Shape and elements of the gradient of array `i`. -/
def gradOf (w : World Int) (i : Nat) : Option (List Int × List Int) := (w.grad i).map fun k => (w.g.shape k, (value Demo.py w k).flatten)

theorem bwd_step {cs : List (Call Int)} {y : Nat} (h : Demo.ok cs (.backward y) = true) : step Demo.py (Demo.after cs) (.backward y) = .ok (.unit, bwd cs y) := by
  unfold Demo.ok at h
  unfold bwd
  cases hs : step Demo.py (Demo.after cs) (.backward y) with
  | error e => rw [hs] at h; cases h
  | ok p =>
    obtain ⟨o, w⟩ := p
    have : o = .unit := by
      unfold step at hs
      split at hs
      · simp only [exec1] at hs
        cases hb : Bwd.backward Demo.py.A (Demo.after cs) y with
        | error e => rw [hb] at hs; cases hs
        | ok w => rw [hb] at hs; cases hs; rfl
      · cases hs
    subst this; rfl

theorem gradOf_some {w : World Int} {i : Nat} {s l : List Int} (h : gradOf w i = some (s, l)) : ∃ k, w.grad i = some k ∧ w.g.shape k = s ∧ (value Demo.py w k).flatten = l := by
  unfold gradOf at h
  obtain ⟨k, hk, e⟩ := Option.map_eq_some_iff.1 h
  simp only [Prod.mk.injEq] at e
  exact ⟨k, hk, e.1, e.2⟩

/-- C29 is false in the code: `x.broadcast_to((2, 3)).backward()` for `x` of shape `(2, 3)` gives `x.grad` of shape `(1, 1)`. -/
theorem C29_counterexample : ∃ (w w' : World Int) (x y k : Nat), Reachable Demo.py w ∧ step Demo.py w (.backward y) = .ok (.unit, w') ∧ w'.grad x = some k ∧
    w'.g.shape x = [2, 3] ∧ w'.g.shape k = [1, 1] := by
  obtain ⟨k, hk, hs, _⟩ := gradOf_some (w := bwd [.array Demo.m23, .broadcastTo 0 [2, 3]] 1) (i := 0) (s := [1, 1]) (l := [6]) (by decide +kernel)
  exact ⟨Demo.after [.array Demo.m23, .broadcastTo 0 [2, 3]], _, 0, 1, k, Demo.reach (by decide +kernel), bwd_step (by decide +kernel), hk, by decide +kernel, hs⟩

/-- C29 is false in the code for negative pads: `x.pad(0, -1, 2).backward()` for `x` of shape `(2, 3)` gives `x.grad` of shape `(0, 3)`. -/
theorem C29_counterexample_pad : ∃ (w w' : World Int) (x y k : Nat), Reachable Demo.py w ∧ step Demo.py w (.backward y) = .ok (.unit, w') ∧ w'.grad x = some k ∧
    w'.g.shape x = [2, 3] ∧ w'.g.shape k = [0, 3] := by
  obtain ⟨k, hk, hs, _⟩ := gradOf_some (w := bwd [.array Demo.m23, .pad 0 0 (-1) 2] 1) (i := 0) (s := [0, 3]) (l := []) (by decide +kernel)
  exact ⟨Demo.after [.array Demo.m23, .pad 0 0 (-1) 2], _, 0, 1, k, Demo.reach (by decide +kernel), bwd_step (by decide +kernel), hk, by decide +kernel, hs⟩

/-- C31 is false in the code: `x.reshape(3, 2).broadcast_to((3, 2)).backward()` raises (the gradient of shape `(1, 1)` cannot be reshaped to `(2, 3)`). -/
theorem C31_counterexample : ∃ (w : World Int) (y : Nat) (e : Err), Reachable Demo.py w ∧ y < w.g.length ∧ step Demo.py w (.backward y) = .error e := by
  have h : Demo.ok [.array Demo.m23, .reshape 0 [3, 2], .broadcastTo 1 [3, 2]] (.backward 2) = false := by decide +kernel
  refine ⟨Demo.after [.array Demo.m23, .reshape 0 [3, 2], .broadcastTo 1 [3, 2]], 2, ?_⟩
  unfold Demo.ok at h
  split at h
  · cases h
  · rename_i e he; exact ⟨e, Demo.reach (by decide +kernel), by decide +kernel, he⟩

/-! ### C30 -/

/-- C30: after `y.backward()` there is an order of the computed arrays that `y` depends on, each once and each after all arrays using it, such that the gradient of every array is
what it was before (ones for `y` if it had none) plus the contributions of all its uses in that order; the contribution of a use is the gradient rule of the operation
(`nodeVjp`) applied to the *final* gradient of the array computed by it.  Arrays that `y` does not depend on keep their gradient. -/
theorem C30_accumulate {b : Backend V} (hb : Faithful b) {w : World V} (hr : Reachable b w) {y : Nat} (hy : y < w.g.length) (hok : BackwardOK w.g y) :
    ∃ w' order, step b w (.backward y) = .ok (.unit, w') ∧ order.Nodup ∧ (∀ t, t ∈ order ↔ Reach w.g y t ∧ w.g.ctx t ≠ .const) ∧
      ConsumersFirst w.g order ∧ (∀ i, ¬ Reach w.g y i → w'.grad i = w.grad i) ∧
      ∀ i < w.g.length, OptEq (gradT b.A w' i) ((order.flatMap (contribsW b.A w.g (gradT b.A w') i)).foldl (addGrad b.A) (seedT b.A w y i)) := by
  obtain ⟨w', order, e, r⟩ := step_backward hb hr hy hok
  refine ⟨w', order, e, r.nodup, fun t => ?_, r.first, r.same, r.sum⟩
  rw [r.mem]
  refine and_congr_right fun _ => not_congr ?_
  cases w.g.ctx t <;> simp [Ctx.inputs]

/-- `z = x*x`, `y = z + z*x`: the gradient of `x` is `2x + 3x²`, collected from four uses. -/
example : Demo.runs [.array Demo.m23, .bin .mul 0 0, .bin .mul 1 0, .bin .add 1 2, .backward 3] = true ∧
    gradOf (bwd [.array Demo.m23, .bin .mul 0 0, .bin .mul 1 0, .bin .add 1 2] 3) 0 = some ([2, 3], [5, 16, 33, 56, 85, 120]) := by decide +kernel

/-! ### reading gradients -/

/-- Reading a gradient is subject to the defect of C09: for `x = arange(4)`, `y = x.reshape(2, 2).pad(0, 1, 1) * arange(8).reshape(4, 2)`, after `y.backward()` the value of `x.grad`
is `[2, 3, 4, 5]` (the derivative), but `x.grad.tolist()` returns `[0, 1, 2, 3]`: the gradient rules made it a reshape of a view with an offset. -/
theorem C09_counterexample_grad : ∃ (w : World Int) (x k : Nat), Reachable Demo.py w ∧ w.grad x = some k ∧ (value Demo.py w k).flatten = [2, 3, 4, 5] ∧
    ∃ l w', step Demo.py w (.tolist k) = .ok (.list l, w') ∧ leaves l = [0, 1, 2, 3] := by
  refine ⟨Demo.after [.arange 4, .reshape 0 [2, 2], .pad 1 0 1 1, .arange 8, .reshape 3 [4, 2], .bin .mul 2 4, .backward 5, .materialize 11], 0, 11,
    Demo.reach (by decide +kernel), by decide +kernel, by decide +kernel, ?_⟩
  have h : Demo.listOf [.arange 4, .reshape 0 [2, 2], .pad 1 0 1 1, .arange 8, .reshape 3 [4, 2], .bin .mul 2 4, .backward 5, .materialize 11] (.tolist 11) =
    some ([4], [0, 1, 2, 3]) := by decide +kernel
  unfold Demo.listOf at h
  split at h
  · rename_i l w' e
    simp only [Option.some.injEq, Prod.mk.injEq] at h
    exact ⟨l, w', e, h.2⟩
  · cases h

/-! ### C33 -/

theorem two_runs {A : Scalar V} {w w1 w' w1' : World V} {y : Nat} {o o1 : List Nat} (hw : WF w.g) (hnn : NN w.g) (hw1 : WF w1.g) (hs1 : GradShapes w1) (he : Ext w.g w1.g) (hy : y < w.g.length)
    (hok : BackwardOK w.g y) (r : BwdRes A w w' y o) (r1 : BwdRes A w1 w1' y o1) (h0 : ∀ t, Reach w.g y t → w.g.ctx t ≠ .const → w.grad t = none)
    (h1 : ∀ t, Reach w.g y t → w.g.ctx t ≠ .const → w1.grad t = none) (hyc : w.g.ctx y ≠ .const) :
    ∀ i, Reach w.g y i → ∃ L : List (Tensor V), (∀ T ∈ L, T.shape = w.g.shape i) ∧
      OptEq (gradT A w' i) (L.foldl (addGrad A) (seedT A w y i)) ∧ OptEq (gradT A w1' i) (L.foldl (addGrad A) (seedT A w1 y i)) := by
  have hoo : o1 = o := by
    obtain ⟨s, e⟩ := r.dfs
    obtain ⟨s1, e1⟩ := r1.dfs
    rw [dfs_ext he hw _ _ _ hy, e] at e1
    injection e1 with e1
    injection e1 with _ e1
    exact (List.reverse_inj.1 e1).symm
  subst hoo
  have hlt : ∀ {i}, Reach w.g y i → i < w.g.length := fun hi => Nat.lt_of_le_of_lt (hi.le hw hy) hy
  have hsh : ∀ {i T}, i < w.g.length → gradT A w' i = some T → T.shape = w.g.shape i := fun hi hT => by
    rw [gradT_shape A r.step.wf r.step.gs _ _ hT, r.step.ext.shape hi]
  have hconst : ∀ t, (w.g.ctx t).inputs ≠ [] → w.g.ctx t ≠ .const := fun t h e => h (by rw [e]; rfl)
  -- the contributions agree where the gradients of the users do
  have key : ∀ i, Reach w.g y i → (∀ t, i < t → Reach w.g y t → w.g.ctx t ≠ .const → OptEq (gradT A w' t) (gradT A w1' t)) →
      (∀ T ∈ o1.flatMap (contribsW A w.g (gradT A w') i), T.shape = w.g.shape i) ∧
      EquivL (o1.flatMap (contribsW A w.g (gradT A w') i)) (o1.flatMap (contribsW A w1.g (gradT A w1') i)) := by
    intro i hi hag
    have : ∀ l : List Nat, (∀ t ∈ l, t ∈ o1) → (∀ T ∈ l.flatMap (contribsW A w.g (gradT A w') i), T.shape = w.g.shape i) ∧
        EquivL (l.flatMap (contribsW A w.g (gradT A w') i)) (l.flatMap (contribsW A w1.g (gradT A w1') i)) := by
      intro l
      induction l with
      | nil => intro _; exact ⟨by simp, trivial⟩
      | cons t l ih =>
        intro hl
        obtain ⟨s1, s2⟩ := ih fun t ht => hl t (by simp [ht])
        have htm := (r.mem t).1 (hl t (by simp))
        have htl := hlt htm.1
        suffices hh : (∀ T ∈ contribsW A w.g (gradT A w') i t, T.shape = w.g.shape i) ∧ EquivL (contribsW A w.g (gradT A w') i t) (contribsW A w1.g (gradT A w1') i t) by
          simp only [List.flatMap_cons]
          exact ⟨fun T hT => (List.mem_append.1 hT).elim (hh.1 T) (s1 T), hh.2.append s2⟩
        by_cases hin : i ∈ (w.g.ctx t).inputs
        · have hit := hw.inputs_lt htl i hin
          have ha := hag t hit htm.1 (hconst t htm.2)
          unfold contribsW
          cases hg : gradT A w' t with
          | none =>
            cases hg1 : gradT A w1' t with
            | none => exact ⟨by simp, trivial⟩
            | some G1 => rw [hg, hg1] at ha; exact ha.elim
          | some G =>
            cases hg1 : gradT A w1' t with
            | none => rw [hg, hg1] at ha; exact ha.elim
            | some G1 =>
              rw [hg, hg1] at ha
              have hGs := hsh htl hg
              refine ⟨contribs_shape A hw hnn htl hGs i, ?_⟩
              simp only [contribs_ext A he hw1 htl]
              exact contribs_congr A hw hnn htl (hok t htm.1) ha hGs i
        · unfold contribsW
          constructor
          · cases gradT A w' t with
            | none => simp
            | some G => simp [contribs_none A G hin]
          · cases gradT A w' t with
            | none =>
              cases gradT A w1' t with
              | none => trivial
              | some G => simp only [contribs_ext A he hw1 htl]; rw [contribs_none A G hin]; trivial
            | some G =>
              simp only [contribs_none A G hin]
              cases gradT A w1' t with
              | none => trivial
              | some G => simp only [contribs_ext A he hw1 htl]; rw [contribs_none A G hin]; trivial
    exact this o1 fun _ h => h
  have hseed1 : ∀ i, Reach w.g y i → w.g.ctx i ≠ .const → OptEq (seedT A w y i) (seedT A w1 y i) ∧ OptShape (w.g.shape i) (seedT A w y i) := by
    intro i hi hc
    unfold seedT
    by_cases e : i = y
    · subst e
      simp only [h0 i hi hc, h1 i hi hc, and_self, if_true]
      rw [he.shape (hlt hi), he.dtype (hlt hi)]
      exact ⟨.refl _, fun T hT => by cases hT; rfl⟩
    · simp only [e, false_and, if_false, gradT, h0 i hi hc, h1 i hi hc, Option.map_none]
      exact ⟨trivial, fun T hT => by cases hT⟩
  -- interior gradients agree
  have hint : ∀ n i, w.g.length - i ≤ n → Reach w.g y i → w.g.ctx i ≠ .const → OptEq (gradT A w' i) (gradT A w1' i) := by
    intro n
    induction n with
    | zero => intro i h hi; have := hlt hi; omega
    | succ n ih =>
      intro i hn hi hc
      obtain ⟨k1, k2⟩ := key i hi fun t ht hrt hct => ih t (by have := hlt hi; omega) hrt hct
      obtain ⟨q1, q2⟩ := hseed1 i hi hc
      refine (r.sum i (hlt hi)).trans (.trans ?_ (r1.sum i (Nat.lt_of_lt_of_le (hlt hi) he.length)).symm)
      exact foldl_addGrad_congrL A k2 k1 q1 q2
  intro i hi
  obtain ⟨k1, k2⟩ := key i hi fun t _ hrt hct => hint _ t (Nat.le_refl _) hrt hct
  refine ⟨_, k1, r.sum i (hlt hi), ?_⟩
  refine (r1.sum i (Nat.lt_of_lt_of_le (hlt hi) he.length)).trans (OptEq.symm ?_)
  refine foldl_addGrad_congrL A k2 k1 (.refl _) ?_
  intro T hT
  have : OptShape (w1.g.shape i) (seedT A w1 y i) := by
    intro T hT
    unfold seedT at hT
    split at hT
    · rename_i hh; cases hT; rw [hh.1]
    · exact gradT_shape A hw1 hs1 i T hT
  rw [this T hT, he.shape (hlt hi)]

/-- C33 as far as it holds: whatever happens between two calls of `y.backward()` (`y` not a constant), if no computed array that `y` depends on has a gradient at the time of
either call (for example because the program clears them), both calls add the same contributions `L` to the gradient of every constant `x` that `y` was computed from.
Missing: the gradients of computed arrays are kept and added to by the next call (`C33_counterexample`). -/
theorem C33_linear_partial {b : Backend V} (hb : Faithful b) {w w1 : World V} (hr : Reachable b w) (hrun : Runs b w w1) {y : Nat} (hy : y < w.g.length) (hok : BackwardOK w.g y)
    (hyc : w.g.ctx y ≠ .const) (h0 : ∀ t, Reach w.g y t → w.g.ctx t ≠ .const → w.grad t = none) (h1 : ∀ t, Reach w.g y t → w.g.ctx t ≠ .const → w1.grad t = none) :
    ∃ w' w1', step b w (.backward y) = .ok (.unit, w') ∧ step b w1 (.backward y) = .ok (.unit, w1') ∧
      ∀ x, Reach w.g y x → w.g.ctx x = .const → ∃ L : List (Tensor V), (∀ T ∈ L, T.shape = w.g.shape x) ∧
        OptEq (gradT b.A w' x) (L.foldl (addGrad b.A) (gradT b.A w x)) ∧ OptEq (gradT b.A w1' x) (L.foldl (addGrad b.A) (gradT b.A w1 x)) := by
  have hi := hr.inv hb
  obtain ⟨hi1, hl⟩ := hrun.later hb hi
  have hok1 : BackwardOK w1.g y := fun i hri => by
    rw [Reach.ext hl.ext hi.winv.wf hy] at hri
    exact (hok i hri).ext hl.ext hi.winv.wf (Nat.lt_of_le_of_lt (hri.le hi.winv.wf hy) hy)
  obtain ⟨w', o, e, r⟩ := step_backward hb hr hy hok
  obtain ⟨w1', o1, e1, r1⟩ := step_backward hb (hrun.reachable hr) (Nat.lt_of_lt_of_le hy hl.ext.length) hok1
  refine ⟨w', w1', e, e1, fun x hx hc => ?_⟩
  have := two_runs hi.winv.wf hi.nn hi1.winv.wf hi1.gs hl.ext hy hok r r1 h0 h1 hyc x hx
  have hxy : x ≠ y := fun e => hyc (e ▸ hc)
  simpa only [seedT, hxy, false_and, if_false] using this

/-- `y = -(-x)`, backward, the two computed gradients cleared, backward again: 1 then 2. -/
def cleared : List (Call Int) := [.array Demo.m23, .un .neg 0, .un .neg 1, .backward 2, .clearGrad 1, .clearGrad 2]

example : Demo.runs cleared = true ∧ gradOf (Demo.after cleared) 0 = some ([2, 3], [1, 1, 1, 1, 1, 1]) ∧ gradOf (bwd cleared 2) 0 = some ([2, 3], [2, 2, 2, 2, 2, 2]) ∧
    (Demo.after cleared).grad 1 = none ∧ (Demo.after cleared).grad 2 = none := by decide +kernel

/-- C33 is false in the code: for `y = -(-x)`, `x.grad` is 1 after the first `y.backward()` and 3 after the second. -/
theorem C33_counterexample : ∃ (w w1 w2 : World Int) (x y : Nat), Reachable Demo.py w ∧ w.g.ctx x = .const ∧ w.grad x = none ∧
    step Demo.py w (.backward y) = .ok (.unit, w1) ∧ step Demo.py w1 (.backward y) = .ok (.unit, w2) ∧
    gradOf w1 x = some ([2, 3], [1, 1, 1, 1, 1, 1]) ∧ gradOf w2 x = some ([2, 3], [3, 3, 3, 3, 3, 3]) := by
  refine ⟨Demo.after [.array Demo.m23, .un .neg 0, .un .neg 1], bwd [.array Demo.m23, .un .neg 0, .un .neg 1] 2,
    bwd [.array Demo.m23, .un .neg 0, .un .neg 1, .backward 2] 2, 0, 2, Demo.reach (by decide +kernel), by decide +kernel, by decide +kernel,
    bwd_step (by decide +kernel), ?_, by decide +kernel, by decide +kernel⟩
  have e := bwd_step (cs := [.array Demo.m23, .un .neg 0, .un .neg 1, .backward 2]) (y := 2) (by decide +kernel)
  have : Demo.after [.array Demo.m23, .un .neg 0, .un .neg 1, .backward 2] = bwd [.array Demo.m23, .un .neg 0, .un .neg 1] 2 := by rfl
  rw [this] at e; exact e

/-! ### C34 -/

/-- C34 as far as it holds: the gradient rule of a broadcast of `x` to its own shape, where that shape is `()` or has a dimension 1, returns an array with the elements of the
incoming gradient `gr` (each as `0 + v`).  Missing: every other shape, where it returns the sum of all elements (`C34_counterexample`). -/
theorem C34_same_shape_partial {b : Backend V} (hb : Faithful b) {w : World V} (hr : Reachable b w) {t x gr : Nat} (ht : t < w.g.length) (hg : gr < w.g.length)
    (hc : w.g.ctx t = .broadcast x (w.g.shape x)) (h1 : w.g.shape x = [] ∨ 1 ∈ w.g.shape x) (hsg : w.g.shape gr = w.g.shape t) :
    ∃ r g', Bwd.rule b.A w.g t gr = .ok ([r], g') ∧ g'.shape r = w.g.shape x ∧
      (den b.A g' r).Equiv ((value b w gr).map (b.A.bin .Add (b.A.ofInt 0))) := by
  have h := hr.inv hb
  have hwf := h.winv.wf
  obtain ⟨ys, g', e, rr⟩ := rule_ok b.A hwf h.nn ht hg (by rw [hc]; simp [Ctx.inputs]) hsg (by
    unfold GradNode; rw [hc]; intro _ hn; exact h1.resolve_left hn)
  have hgr := rr.grads
  have hst : w.g.shape t = w.g.shape x := by
    have := hwf t ht
    unfold NodeOK at this
    rw [show (w.g.nd t).ctx = w.g.ctx t from rfl, hc] at this
    exact (node_shape this.2.2).trans rfl
  rw [hc] at hgr
  simp only [Ctx.inputs, nodeVjp, hc] at hgr
  match ys, hgr with
  | [r], ⟨⟨_, hs, hd⟩, _⟩ =>
    refine ⟨r, g', e, hs, hd.trans ⟨?_, fun j hj => ?_⟩⟩
    · simp only [bcastVjp, Tensor.map, value]; rw [den_shape b.A hwf hg, hsg, hst]
    · simp only [bcastVjp] at hj
      have hsh : (den b.A w.g gr).shape = w.g.shape x := by rw [den_shape b.A hwf hg, hsg, hst]
      simp only [bcastVjp, Tensor.map, value]
      rw [hsh, Nat.sub_self]
      have hid : ∀ s i, ValidIdx s i → bcastIdx s i = i := by
        intro s
        induction s with
        | nil => intro i hi; cases i <;> simp_all [bcastIdx, ValidIdx]
        | cons d s ih =>
          intro i hi
          cases i with
          | nil => simp [ValidIdx] at hi
          | cons k i =>
            have := ih i hi.2
            simp only [bcastIdx, List.zipWith_cons_cons] at this ⊢
            rw [this]
            have := hi.1
            congr 1
            split <;> omega
      have hf : (indices (w.g.shape x)).filter (fun i => bcastIdx (w.g.shape x) (i.drop 0) = j) = [j] := by
        have : (indices (w.g.shape x)).filter (fun i => bcastIdx (w.g.shape x) (i.drop 0) = j) = (indices (w.g.shape x)).filter (fun i => i = j) := by
          apply List.filter_congr
          intro i hi
          rw [List.drop_zero, hid _ _ (mem_indices.1 hi)]
        rw [this]
        have hnd := nodup_indices (w.g.shape x)
        have hm := mem_indices.2 hj
        revert hnd hm
        generalize indices (w.g.shape x) = l
        intro hnd hm
        induction l with
        | nil => simp at hm
        | cons a l ih =>
          rw [List.filter_cons]
          have hn := List.nodup_cons.1 hnd
          by_cases ha : a = j
          · subst ha
            have : l.filter (fun i => i = a) = [] := by
              rw [List.filter_eq_nil_iff]
              intro i hi
              simp only [decide_eq_true_eq]
              intro e; subst e; exact hn.1 hi
            simp [this]
          · simp only [ha, decide_false]
            exact ih hn.2 (by simpa [Ne.symm ha] using hm)
      rw [hf]; rfl

example : Demo.runs [.full [1, 3] 5, .broadcastTo 0 [1, 3], .backward 1] = true ∧ gradOf (bwd [.full [1, 3] 5, .broadcastTo 0 [1, 3]] 1) 0 = some ([1, 3], [1, 1, 1]) := by decide +kernel

/-- C34 is false in the code: through `x.broadcast_to((2, 3))`, `x` of shape `(2, 3)`, the gradient of all ones arrives as the single element 6. -/
theorem C34_counterexample : ∃ (w w' : World Int) (x y : Nat), Reachable Demo.py w ∧ w.g.ctx y = .broadcast x (w.g.shape x) ∧ step Demo.py w (.backward y) = .ok (.unit, w') ∧
    gradOf w' y = some ([2, 3], [1, 1, 1, 1, 1, 1]) ∧ gradOf w' x = some ([1, 1], [6]) :=
  ⟨Demo.after [.array Demo.m23, .broadcastTo 0 [2, 3]], _, 0, 1, Demo.reach (by decide +kernel), by rfl, bwd_step (by decide +kernel), by decide +kernel, by decide +kernel⟩

theorem indices_ones (n : Nat) : indices (List.replicate n 1) = [List.replicate n 0] := by
  induction n with
  | zero => rfl
  | succ n ih => simp only [List.replicate_succ, indices, ih]; rfl

/-- C34, exactly: through a broadcast of `x` to its own shape, not `()` and without a dimension 1, the gradient rule of the code returns one single element, in an array of shape
`(1, ..., 1)`: the sum of all elements of the incoming gradient `gr`. -/
theorem C34_exact {b : Backend V} (hb : Faithful b) {w : World V} (hr : Reachable b w) {t x gr : Nat} (ht : t < w.g.length) (hg : gr < w.g.length)
    (hc : w.g.ctx t = .broadcast x (w.g.shape x)) (h1 : 1 ∉ w.g.shape x) (hsg : w.g.shape gr = w.g.shape t) :
    ∃ r g', Bwd.rule b.A w.g t gr = .ok ([r], g') ∧ g'.shape r = List.replicate (w.g.shape x).length 1 ∧
      (den b.A g' r).flatten = [(value b w gr).flatten.foldl (b.A.bin .Add) (b.A.ofInt 0)] := by
  have h := hr.inv hb
  have hwf := h.winv.wf
  have hst : w.g.shape t = w.g.shape x := by
    have := hwf t ht
    unfold NodeOK at this
    rw [show (w.g.nd t).ctx = w.g.ctx t from rfl, hc] at this
    exact (node_shape this.2.2).trans rfl
  have hnd : w.g.ndim gr = (w.g.shape x).length := by unfold Graph.ndim; rw [hsg, hst]
  have hax : Bwd.bcastAxes (w.g.ndim gr) (w.g.shape x) = [] := by
    unfold Bwd.bcastAxes
    rw [hnd, Nat.sub_self]
    have : (w.g.shape x).zipIdx.filter (fun p => p.1 = 1) = [] := by
      rw [List.filter_eq_nil_iff]
      intro p hp
      simp only [decide_eq_true_eq]
      intro e
      exact h1 (e ▸ List.fst_mem_of_mem_zipIdx hp)
    rw [this]; rfl
  have hn : ND.normAxis (w.g.ndim gr) (.tuple []) = .ok (List.range (w.g.ndim gr)) := by
    unfold ND.normAxis ND.axisList
    by_cases hz : w.g.ndim gr = 0
    · simp [hz, pure, Except.pure]
    · simp only [hz, false_and, if_false, pure, Except.pure, Except.ok.injEq]
      apply List.ext_getElem
      · simp
      · intro k h1 h2
        simp only [List.isEmpty_nil, if_true, List.getElem_map, List.getElem_range]
        simp only [List.length_range] at h2
        rw [Int.ofNat_eq_natCast, Int.emod_eq_of_lt (by omega) (by omega)]; rfl
  obtain ⟨r, g', e, m, d⟩ := sum_s hwf h.nn hg (kd := true) hn
  have hsh : Tensor.sumShape (List.range (w.g.ndim gr)) true (w.g.shape gr) = List.replicate (w.g.shape x).length 1 := by
    rw [hnd, hsg, hst]
    unfold Tensor.sumShape
    rw [if_pos rfl]
    apply List.ext_getElem
    · simp
    · intro k h1 h2
      simp at h1 ⊢
      omega
  refine ⟨r, g', ?_, by rw [m.shape, hsh], ?_⟩
  · have : Bwd.rule b.A w.g t gr = Bwd.broadcastRule w.g x gr := by unfold Bwd.rule; rw [hc]
    rw [this]
    unfold Bwd.broadcastRule
    rw [hax, e, hnd]
    simp [bind, Except.bind, pure, Except.pure]
  · have hsd : (den b.A w.g gr).shape = w.g.shape gr := den_shape b.A hwf hg
    rw [d]
    unfold Tensor.flatten
    rw [show ((den b.A w.g gr).sum b.A (List.range (w.g.ndim gr)) true).shape = List.replicate (w.g.shape x).length 1 by
      simp only [Tensor.sum]; rw [hsd, hsh], indices_ones]
    simp only [List.map_cons, List.map_nil, Tensor.sum]
    congr 1
    rw [List.filter_eq_self.2, List.foldl_map]
    · rfl
    · intro j hj
      have hl := (mem_indices.1 hj).length
      rw [hsd, hsg, hst] at hl
      rw [hnd]
      simp only [decide_eq_true_eq, Tensor.sumProj, if_true]
      apply List.ext_getElem
      · simp [hl]
      · intro k h1 h2
        simp at h1 ⊢
        omega

example : Demo.runs [.array Demo.m23, .broadcastTo 0 [2, 3], .array Demo.m23] = true ∧ (Demo.after [.array Demo.m23, .broadcastTo 0 [2, 3], .array Demo.m23]).g.ctx 1 = .broadcast 0 [2, 3] ∧
    1 ∉ (Demo.after [.array Demo.m23, .broadcastTo 0 [2, 3], .array Demo.m23]).g.shape 0 := by decide +kernel

end Whale.Props
