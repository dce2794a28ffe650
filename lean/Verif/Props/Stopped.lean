import Verif.Props.EndToEnd
import Verif.Props.Gradient
/-
C59: `backward()` left in the middle by an exception (Ctrl-C, out of memory) that the program catches.
All other properties quantify over histories in which this may have happened (`Reachable`, `Runs`).
-/
namespace Whale.Props
open Whale Hist Mat Bwd
variable {V : Type}

/-- C59: wherever `y.backward()` is left, every array still exists with its shape, dtype and value, is what it was for all later calls (`Is`), the data in CPU and device memory and the
compiled kernels are untouched, the gradients of arrays that `y` does not depend on are the same objects, no gradient is lost, and every gradient has the shape of its array. -/
theorem C59_keeps {b : Backend V} (hb : Faithful b) {w w' : World V} (hr : Reachable b w) {y : Nat} (hy : y < w.g.length) (hok : BackwardOK w.g y) (hs : Stopped b.A w y w') :
    (∀ i < w.g.length, i < w'.g.length ∧ w'.g.shape i = w.g.shape i ∧ w'.g.dtype i = w.g.dtype i ∧ value b w' i = value b w i) ∧ (∀ a T, Is b w a T → Is b w' a T) ∧
      w'.cpu = w.cpu ∧ w'.dev = w.dev ∧ w'.cache = w.cache ∧ w'.ev = w.ev ∧ (∀ i, ¬ Reach w.g y i → w'.grad i = w.grad i) ∧ (∀ i, (w.grad i).isSome → (w'.grad i).isSome) ∧
      ∀ i k, w'.grad i = some k → k < w'.g.length ∧ w'.g.shape k = w'.g.shape i := by
  have hi := hr.inv hb
  obtain ⟨h, hsame⟩ := hs.bstep b.A hi.winv.wf hi.nn hi.gs hy hok
  refine ⟨fun i hil => ⟨Nat.lt_of_lt_of_le hil h.ext.length, h.ext.shape hil, h.ext.dtype hil, den_ext b.A h.ext h.wf hil⟩, fun a T hT => hT.later hb hr (.stopped .refl hy hok hs), ?_, ?_, ?_, ?_,
    hsame, h.mono, fun i k hk => (h.gs i k hk).2⟩ <;> rw [h.rest]

/-- C59: after `y.backward()` was left in the middle, whatever was called since, once no array below `y` has a gradient (the program cleared those that were left), `y.backward()` succeeds and
every array below `y` gets a gradient with the elements it would have got from an undisturbed call. -/
theorem C59_retry {b : Backend V} (hb : Faithful b) {w w1 w2 : World V} (hr : Reachable b w) {y : Nat} (hy : y < w.g.length) (hok : BackwardOK w.g y) (hyc : w.g.ctx y ≠ .const)
    (h0 : ∀ i, Reach w.g y i → w.grad i = none) (hs : Stopped b.A w y w1) (hrun : Runs b w1 w2) (h2 : ∀ i, Reach w.g y i → w2.grad i = none) :
    ∃ w' w2', step b w (.backward y) = .ok (.unit, w') ∧ step b w2 (.backward y) = .ok (.unit, w2') ∧
      ∀ i, Reach w.g y i → ∃ k k2, w'.grad i = some k ∧ w2'.grad i = some k2 ∧ (value b w2' k2).Equiv (value b w' k) := by
  have hi := hr.inv hb
  have hr1 : Reachable b w1 := hr.stopped hy hok hs
  have hrw : Runs b w w2 := by
    have h1 : Runs b w w1 := .stopped .refl hy hok hs
    clear hr1 h2
    induction hrun with
    | refl => exact h1
    | call _ hl hn ih => exact .call ih hl hn
    | stopped _ hy ha hst ih => exact .stopped ih hy ha hst
  obtain ⟨hi2, hl⟩ := hrw.later hb hi
  have hok2 : BackwardOK w2.g y := fun i hri => by
    rw [Reach.ext hl.ext hi.winv.wf hy] at hri
    exact (hok i hri).ext hl.ext hi.winv.wf (Nat.lt_of_le_of_lt (hri.le hi.winv.wf hy) hy)
  obtain ⟨w', o, e, r⟩ := step_backward hb hr hy hok
  obtain ⟨w2', o2, e2, r2⟩ := step_backward hb (hrw.reachable hr) (Nat.lt_of_lt_of_le hy hl.ext.length) hok2
  refine ⟨w', w2', e, e2, fun i hri => ?_⟩
  obtain ⟨L, hL, q1, q2⟩ := two_runs hi.winv.wf hi.nn hi2.winv.wf hi2.gs hl.ext hy hok r r2 (fun t ht _ => h0 t ht) (fun t ht _ => h2 t ht) hyc i hri
  have hil := Nat.lt_of_le_of_lt (hri.le hi.winv.wf hy) hy
  have hseed : seedT b.A w2 y i = seedT b.A w y i := by
    unfold seedT
    by_cases e : i = y
    · subst e
      simp only [h0 i hri, h2 i hri, and_self, if_true]
      rw [hl.ext.shape hil, hl.ext.dtype hil]
    · simp only [e, false_and, if_false, gradT, h0 i hri, h2 i hri, Option.map_none]
  rw [hseed] at q2
  have q := q2.trans q1.symm
  obtain ⟨k, hk⟩ := Option.isSome_iff_exists.1 (r.some i hri)
  obtain ⟨k2, hk2⟩ := Option.isSome_iff_exists.1 (r2.some i ((Reach.ext hl.ext hi.winv.wf hy).2 hri))
  refine ⟨k, k2, hk, hk2, ?_⟩
  show (den b.A w2'.g k2).Equiv (den b.A w'.g k)
  simpa only [gradT, hk, hk2, Option.map_some, OptEq] using q

/-! ### concrete case -/

/-- `y = -(-x)` -/
def twiceNeg : List (Call Int) := [.array Demo.m23, .un .neg 0, .un .neg 1]

/-- `y.backward()` interrupted after the gradient of `-x` was set, before that of `x` was. -/
def halfway : World Int := ([2].foldlM (visit Demo.py.A) (seed Demo.py.A (Demo.after twiceNeg) 2)).toOption.getD Mat.init

theorem halfway_stopped : Stopped Demo.py.A (Demo.after twiceNeg) 2 halfway := by
  have h := Stopped.rule (A := Demo.py.A) (w := Demo.after twiceNeg) (y := 2) (seen := [1, 2]) (funcs := [1, 2]) (pre := [2]) (post := []) (t := 1) (gr := 4) (gxs := [5]) (w1 := halfway)
    (g := halfway.g ++ [ND.elemwiseNode halfway.g (.unary .Neg 4) 4]) (g' := halfway.g) (by decide +kernel) rfl rfl (by decide +kernel) rfl (List.prefix_refl _) (List.prefix_append _ _)
  exact h

/-- The program goes on from there with the calls `cs`. -/
def afterHalf (cs : List (Call Int)) : World Int := (runL Demo.py halfway cs).getD Mat.init

theorem afterHalf_runs {cs : List (Call Int)} (h : (runL Demo.py halfway cs).isSome = true) : Runs Demo.py halfway (afterHalf cs) := by
  obtain ⟨w', hw⟩ := Option.isSome_iff_exists.1 h
  have hr : Reachable Demo.py halfway := (Demo.reach (cs := twiceNeg) (by decide +kernel)).stopped (y := 2) (by decide +kernel) (argsOKb_sound (c := .backward 2)
    (by decide +kernel) ((Demo.reach (cs := twiceNeg) (by decide +kernel)).inv Demo.py_faithful).winv.wf (by decide +kernel)) halfway_stopped
  unfold afterHalf
  rw [hw]
  exact runL_runs Demo.py_faithful (hr.inv Demo.py_faithful) hw .refl

/-- The state left: `y` and `-x` have gradients, `x` has none.  After clearing the two, `y.backward()` gives `x` the gradient 1 … -/
example : (halfway.grad 2).isSome ∧ (halfway.grad 1).isSome ∧ halfway.grad 0 = none ∧
    (∀ i ∈ [0, 1, 2], (afterHalf [.clearGrad 1, .clearGrad 2]).grad i = none) ∧ (runL Demo.py halfway [.clearGrad 1, .clearGrad 2, .backward 2]).isSome = true ∧
    gradOf (afterHalf [.clearGrad 1, .clearGrad 2, .backward 2]) 0 = some ([2, 3], [1, 1, 1, 1, 1, 1]) := by decide +kernel

/-- … and clearing is necessary: called again without it, `y.backward()` gives `x` the gradient 2. -/
theorem C59_needs_clearing : ∃ (w w1 w2 w3 : World Int) (x y : Nat), Reachable Demo.py w ∧ (∀ i, w.grad i = none) ∧ Stopped Demo.py.A w y w1 ∧
    step Demo.py w (.backward y) = .ok (.unit, w2) ∧ gradOf w2 x = some ([2, 3], [1, 1, 1, 1, 1, 1]) ∧
    step Demo.py w1 (.backward y) = .ok (.unit, w3) ∧ gradOf w3 x = some ([2, 3], [2, 2, 2, 2, 2, 2]) := by
  refine ⟨Demo.after twiceNeg, halfway, bwd twiceNeg 2, afterHalf [.backward 2], 0, 2, Demo.reach (by decide +kernel), fun _ => rfl, halfway_stopped, bwd_step (by decide +kernel), by decide +kernel,
    rfl, by decide +kernel⟩

end Whale.Props
