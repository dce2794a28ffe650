import Verif.Proofs.Observe
import Verif.Spec.Reference
/-
Running concrete programs in the model: used to show that the hypotheses of the theorems are met by non-trivial cases, and for counterexamples.
-/
namespace Whale
open Mat Hist
variable {V : Type}

mutual
def hasShapeB : List Int → Nested V → Bool
  | [], .leaf _ => true
  | s :: ss, .node l => decide ((l.length : Int) = s) && hasShapeLB ss l
  | _, _ => false
def hasShapeLB : List Int → List (Nested V) → Bool
  | _, [] => true
  | ss, x :: xs => hasShapeB ss x && hasShapeLB ss xs
end

mutual
theorem hasShapeB_sound (s : List Int) (v : Nested V) (h : hasShapeB s v = true) : HasShape s v := by
  match s, v with
  | [], .leaf _ => trivial
  | s :: ss, .node l =>
    simp only [hasShapeB, Bool.and_eq_true, decide_eq_true_eq] at h
    exact ⟨h.1, hasShapeLB_sound ss l h.2⟩
  | [], .node _ => simp [hasShapeB] at h
  | _ :: _, .leaf _ => simp [hasShapeB] at h
theorem hasShapeLB_sound (s : List Int) (l : List (Nested V)) (h : hasShapeLB s l = true) : HasShapeL s l := by
  match l with
  | [] => trivial
  | x :: xs =>
    simp only [hasShapeLB, Bool.and_eq_true] at h
    exact ⟨hasShapeB_sound s x h.1, hasShapeLB_sound s xs h.2⟩
end

def scalarReshapeB (n : Node V) : Bool := match n.ctx with
  | .reshape _ [] => true
  | _ => false

def gradNodeB (g : Graph V) (i : Nat) : Bool := match g.ctx i with
  | .broadcast x s => decide (s.length = (g.shape x).length → s ≠ [] → 1 ∈ g.shape x)
  | .slice _ subs => subs.all fun s => match s with | .slice a b c => decide (c = 1 ∨ a < b) | _ => true
  | .pad _ _ x y => decide (0 ≤ x ∧ 0 ≤ y)
  | _ => true

/-- Sufficient check of `ArgsOK`. -/
def argsOKb (b : Backend V) (w : World V) : Call V → Bool
  | .array v => hasShapeB (shapeOf v) v
  | .full s _ => decide (NonNeg s)
  | .broadcastTo a s => decide (BroadcastsTo (w.g.shape a) s ∧ NonNeg s)
  | .reshape _ s => decide (NonNeg s)
  | .pad a d x y => decide (0 ≤ d ∧ 0 ≤ geti (w.g.shape a) d.toNat + (x + y))
  | .dilate a d st => decide (0 ≤ d ∧ 1 ≤ st ∧ (st = 1 ∨ 1 ≤ geti (w.g.shape a) d.toNat))
  | .materialize a => w.g.all (fun n => !scalarReshapeB n) && decide (NoCollision (w.log ++ launchLog b.isGpu w.g a)) &&
      (!b.isGpu || w.g.all (fun n => decide (0 < prod n.shape) && decide (GridOK (launchGrid n.shape))))
  | .backward _ => (List.range w.g.length).all (gradNodeB w.g)
  | .setGrad a k => decide (w.g.shape k = w.g.shape a)
  | _ => true

theorem nd_mem {g : Graph V} {i : Nat} (hi : i < g.length) : g.nd i ∈ g := by
  have : g.nd i = g[i] := by unfold Graph.nd; rw [List.getD_eq_getElem?_getD, List.getElem?_eq_getElem hi]; rfl
  rw [this]; exact List.getElem_mem _

theorem gradNodeB_sound {g : Graph V} {i : Nat} (h : gradNodeB g i = true) : GradNode g i := by
  unfold gradNodeB at h
  unfold GradNode
  cases hc : g.ctx i <;> rw [hc] at h <;> try trivial
  · exact of_decide_eq_true h
  · intro a b c hm
    have := List.all_eq_true.1 h _ hm
    exact of_decide_eq_true this
  · exact of_decide_eq_true h

theorem argsOKb_sound {b : Backend V} {w : World V} {c : Call V} (hin : ∀ a ∈ c.arrays, a < w.g.length) (hw : WF w.g) (h : argsOKb b w c = true) : ArgsOK b w c := by
  cases c <;> try trivial
  · exact hasShapeB_sound _ _ h
  · exact of_decide_eq_true (p := NonNeg _) h
  · exact of_decide_eq_true (p := BroadcastsTo _ _ ∧ NonNeg _) h
  · exact of_decide_eq_true (p := NonNeg _) h
  · rename_i a d x y; exact of_decide_eq_true (p := 0 ≤ d ∧ 0 ≤ geti (w.g.shape a) d.toNat + (x + y)) h
  · rename_i a d st; exact of_decide_eq_true (p := 0 ≤ d ∧ 1 ≤ st ∧ (st = 1 ∨ 1 ≤ geti (w.g.shape a) d.toNat)) h
  · rename_i a
    have ha : a < w.g.length := hin a (by simp [Call.arrays])
    have hbl := Nat.lt_of_le_of_lt (base_le hw ha) ha
    simp only [argsOKb, Bool.and_eq_true, decide_eq_true_eq] at h
    obtain ⟨⟨h1, h2⟩, h3⟩ := h
    have h3' : b.isGpu = true → ∀ n ∈ w.g, 0 < prod n.shape ∧ GridOK (launchGrid n.shape) := by
      intro hg; rw [hg] at h3; simpa using h3
    have hns : NoScalarReshape w.g (base w.g a) := fun i hi ⟨x, hx⟩ => ?_
    · refine ⟨hns, h2, fun hg => ⟨fun i hi => (h3' hg _ (nd_mem (Nat.lt_of_le_of_lt (hi.le hw hbl) hbl))).1, fun funcs t ht f hf _ => ?_⟩⟩
      obtain ⟨funcs', t', e', _, _, _, hent⟩ := convert_ok hw hbl hns (base_base hw ha)
      rw [ht] at e'; cases e'
      exact (h3' hg _ (nd_mem (Nat.lt_of_le_of_lt ((hent f hf).1.le hw hbl) hbl))).2
    · have := List.all_eq_true.1 h1 _ (nd_mem (Nat.lt_of_le_of_lt (hi.le hw hbl) hbl))
      have hx' : (w.g.nd i).ctx = .reshape x [] := hx
      simp [scalarReshapeB, hx'] at this
  · rename_i a
    have ha : a < w.g.length := hin a (by simp [Call.arrays])
    intro i hi
    exact gradNodeB_sound (List.all_eq_true.1 h i (List.mem_range.2 (Nat.lt_of_le_of_lt (hi.le hw ha) ha)))
  · rename_i a k; exact of_decide_eq_true (p := w.g.shape k = w.g.shape a) h

/-- Run a program; every call must succeed and have its arguments in the domain. -/
def runL (b : Backend V) : World V → List (Call V) → Option (World V)
  | w, [] => some w
  | w, c :: cs => match step b w c with
    | .ok (_, w') => if argsOKb b w c then runL b w' cs else none
    | .error _ => none

theorem runL_runs {b : Backend V} (hb : Faithful b) {w : World V} (hi : Inv b w) {cs : List (Call V)} {w' : World V} (h : runL b w cs = some w') {w0 : World V} (h0 : Runs b w0 w) : Runs b w0 w' := by
  induction cs generalizing w with
  | nil => cases h; exact h0
  | cons c cs ih =>
    unfold runL at h
    cases hs : step b w c with
    | error e => rw [hs] at h; cases h
    | ok p =>
      obtain ⟨o, w1⟩ := p
      rw [hs] at h
      simp only at h
      split at h
      case isFalse => cases h
      rename_i ha
      have ha' : ArgsOK b w c := argsOKb_sound (by
        unfold step at hs
        split at hs
        · rename_i hin; exact hin
        · cases hs) hi.winv.wf ha
      exact ih (step_ok hb hi ha' hs).inv h (.call h0 (.inr ha') (by unfold next; rw [hs]))

namespace Demo

/-- Integers with the exact arithmetic operations (the transcendental ones are placeholders): the scalar type of the demonstrations. -/
def Z : Scalar Int := ⟨id, 1, fun _ => true, fun o x => if o = .Neg then -x else x,
  fun o x y => match o with | .Add => x + y | .Sub => x - y | .Mul => x * y | .Truediv => x / y | _ => x, 0, id⟩

/-- The Python backend on integers. -/
def py : Backend Int := pythonBackend Z

theorem py_faithful : Faithful py := pythonBackend_faithful Z

/-- The world after a program. -/
def after (cs : List (Call Int)) : World Int := (runL py Mat.init cs).getD Mat.init

/-- The program runs without exception and inside the domain. -/
def runs (cs : List (Call Int)) : Bool := (runL py Mat.init cs).isSome

theorem reach {cs : List (Call Int)} (h : runs cs = true) : Reachable py (after cs) := by
  unfold runs at h
  obtain ⟨w, hw⟩ := Option.isSome_iff_exists.1 h
  have e : after cs = w := by unfold after; rw [hw]; rfl
  rw [e]
  exact (runL_runs py_faithful (.init py) hw .refl).reachable .init

/-- The call returns. -/
def ok (cs : List (Call Int)) (c : Call Int) : Bool := match step py (after cs) c with | .ok _ => true | .error _ => false

/-- Shape and elements of the list a call returns. -/
def listOf (cs : List (Call Int)) (c : Call Int) : Option (List Int × List Int) := match step py (after cs) c with
  | .ok (.list l, _) => some (shapeOf l, leaves l)
  | _ => none

/-- The array a call returns. -/
def arrOf (cs : List (Call Int)) (c : Call Int) : Option Nat := match step py (after cs) c with
  | .ok (.arr r, _) => some r
  | _ => none

theorem arrOf_some {cs : List (Call Int)} {c : Call Int} {r : Nat} (h : arrOf cs c = some r) : ∃ w', step py (after cs) c = .ok (.arr r, w') := by
  unfold arrOf at h
  split at h
  · rename_i r' w' e; cases h; exact ⟨w', e⟩
  · cases h

/-- `[[1, 2, 3], [4, 5, 6]]` -/
def m23 : Nested Int := .node [.node [.leaf 1, .leaf 2, .leaf 3], .node [.leaf 4, .leaf 5, .leaf 6]]

example : runs [.array m23, .transpose 0 [1, 0], .sum 1 (.tuple [0, -1]) false, .bin .add 1 2, .materialize 4] = true := by decide +kernel
example : listOf [.array m23, .transpose 0 [1, 0], .sum 1 (.tuple [0, -1]) false, .bin .add 1 2, .materialize 4] (.tolist 4) = some ([3, 2], [22, 25, 23, 26, 24, 27]) := by decide +kernel

end Demo
end Whale
