import Verif.Proofs.Demo
import Verif.Spec.Launch
/-
C and GPU backends for the demonstrations.  Kernels without concurrent loops are run by evaluation (on a GPU: thread after thread); for others one of the allowed
executions is chosen.
-/
namespace Whale
open Kern Mat Hist
variable {V : Type}

/-- A backend that is only a description of the language (used to say which executions are allowed). -/
def bare (A : Scalar V) (isC isGpu : Bool) (junk : Nat → V) : Backend V := ⟨A, isC, isGpu, fun _ _ _ _ => none, junk⟩

theorem allowed_exists (A : Scalar V) (isC isGpu : Bool) (junk : Nat → V) (m : Machine V) (sch : Schedule) (body : Stmt) :
    ∃ r, Allowed (bare A isC isGpu junk) m sch body r := by
  obtain ⟨b, _, h2, h3, _, h5⟩ := faithful_exists A isC isGpu junk
  refine ⟨b.run 0 m sch body, ?_⟩
  have := h5 0 m sch body
  unfold Allowed at this ⊢
  rw [h2, h3] at this
  exact this

noncomputable def demoBackend (A : Scalar V) (isC isGpu : Bool) (junk : Nat → V) : Backend V :=
  { A := A, isC := isC, isGpu := isGpu, junk := junk
    run := fun _ m sch body =>
      if noPar body then
        if isGpu then (if (threads sch).all (fun t => (exec (onThread m t) body (fun _ => none)).isSome) then
            some ((threads sch).flatMap fun t => writesOf (exec (onThread m t) body (fun _ => none))) else none)
        else (exec m body (fun _ => none)).map (·.writes)
      else (allowed_exists A isC isGpu junk m sch body).choose }

theorem demoBackend_faithful (A : Scalar V) (isC isGpu : Bool) (junk : Nat → V) : Faithful (demoBackend A isC isGpu junk) := by
  intro tick m sch body
  by_cases hp : noPar body = true
  · unfold Allowed
    simp only [demoBackend, hp, if_true]
    cases isGpu with
    | true =>
      simp only [if_true]
      refine ⟨fun t => exec (onThread m t) body (fun _ => none), fun t _ => (par_det hp _ _).2 rfl, ?_⟩
      split
      · rename_i h
        exact Or.inl ⟨by simpa using h, _, by rw [List.flatMap_def]; exact Interleave.flatten _, rfl⟩
      · rename_i h
        exact Or.inr ⟨by simpa using h, rfl⟩
    | false =>
      simp only [Bool.false_eq_true, if_false]
      split
      · exact ⟨_, (par_det hp _ _).2 rfl, rfl⟩
      · trivial
  · have h := (allowed_exists A isC isGpu junk m sch body).choose_spec
    have hf : noPar body = false := by simpa using hp
    have e : (demoBackend A isC isGpu junk).run tick m sch body = (allowed_exists A isC isGpu junk m sch body).choose := by
      simp only [demoBackend, hf, Bool.false_eq_true, if_false]
    rw [e]
    exact h

/-- The kernel that materializing `a` runs for `f`. -/
def genOf (isGpu : Bool) (g : Graph V) (a f : Nat) : Option (List Nat × Schedule × Kernel) :=
  match Algo.convert g a with
  | .error _ => none
  | .ok (funcs, t) => match t f with
    | none => none
    | some F => match Sched.schedule isGpu F with
      | .error _ => none
      | .ok sch => match Codegen.codegen g t F sch ⟨(Algo.args F.expr).1, (Algo.args F.expr).2⟩ 0 with
        | .error _ => none
        | .ok (K, _) => if f ∈ funcs then some ((Algo.args F.expr).1 ++ (Algo.args F.expr).2, sch, K) else none

theorem genOf_generates {isGpu : Bool} {g : Graph V} {a f : Nat} {r : List Nat × Schedule × Kernel} (h : genOf isGpu g a f = some r) :
    Generates isGpu g a f r.1 r.2.1 r.2.2 := by
  unfold genOf at h
  split at h
  · cases h
  rename_i funcs t e
  split at h
  · cases h
  rename_i F hF
  split at h
  · cases h
  rename_i sch hs
  split at h
  · cases h
  rename_i K n' hK
  split at h
  · rename_i hm; cases h
    exact ⟨funcs, t, F, 0, n', e, hm, hF, rfl, hs, hK⟩
  · cases h

theorem genOf_exists {isGpu : Bool} {g : Graph V} {a f : Nat} (h : (genOf isGpu g a f).isSome = true) : ∃ ins sch K, Generates isGpu g a f ins sch K := by
  obtain ⟨r, hr⟩ := Option.isSome_iff_exists.1 h
  exact ⟨_, _, _, genOf_generates hr⟩

/-- Sufficient check of `NoScalarReshape`. -/
theorem noScalarReshape_of {g : Graph V} {a : Nat} (hw : WF g) (ha : a < g.length) (h : g.all (fun n => !scalarReshapeB n) = true) : NoScalarReshape g a := by
  intro i hi ⟨x, hx⟩
  have := List.all_eq_true.1 h _ (nd_mem (Nat.lt_of_le_of_lt (hi.le hw ha) ha))
  have hx' : (g.nd i).ctx = .reshape x [] := hx
  simp [scalarReshapeB, hx'] at this

namespace Demo

/-- CUDA-like backend on integers. -/
noncomputable def cuda : Backend Int := demoBackend Z true true (fun _ => 77)
/-- C-like backend on integers. -/
noncomputable def clang : Backend Int := demoBackend Z true false (fun _ => 77)

theorem cuda_faithful : Faithful cuda := demoBackend_faithful _ _ _ _
theorem clang_faithful : Faithful clang := demoBackend_faithful _ _ _ _

/-- The world after a program on backend `b`. -/
def afterOn (b : Backend V) (cs : List (Call V)) : World V := (runL b Mat.init cs).getD Mat.init

/-- The program runs without exception and inside the domain. -/
def runsOn (b : Backend V) (cs : List (Call V)) : Bool := (runL b Mat.init cs).isSome

theorem reachOn {b : Backend V} (hb : Faithful b) {cs : List (Call V)} (h : runsOn b cs = true) : Reachable b (afterOn b cs) := by
  unfold runsOn at h
  obtain ⟨w, hw⟩ := Option.isSome_iff_exists.1 h
  have e : afterOn b cs = w := by unfold afterOn; rw [hw]; rfl
  rw [e]
  exact (runL_runs hb (.init b) hw .refl).reachable .init

/-- Shape and elements of the list a call returns. -/
def listOn (b : Backend Int) (cs : List (Call Int)) (c : Call Int) : Option (List Int × List Int) := match step b (afterOn b cs) c with
  | .ok (.list l, _) => some (shapeOf l, leaves l)
  | _ => none

example : runsOn cuda [.array m23, .transpose 0 [1, 0], .sum 1 (.tuple [0, -1]) false, .bin .add 1 2, .materialize 4] = true := by decide +kernel
example : listOn cuda [.array m23, .transpose 0 [1, 0], .sum 1 (.tuple [0, -1]) false, .bin .add 1 2, .materialize 4] (.tolist 4) = some ([3, 2], [22, 25, 23, 26, 24, 27]) := by decide +kernel

end Demo
end Whale
