import Verif.Proofs.DemoG
import Verif.Props.Stopped
/-
Garbage collection (C55).
-/
namespace Whale.Props
open Mat Hist
variable {V : Type}

/-! ### C55 -/

/-- C55: collection is invisible.  For every program run under garbage collection there is the same program run without any: the same arrays exist, everything that has not been collected
(host data, device data, gradients) is the same, so are the compiled kernels and all counters, the device has done the same work in the same order except for `free`s, and the next call on
arrays the program still refers to, whatever it is (if it is `materialize`, in its domain), returns the same or raises the same exception. -/
theorem C55_invisible {b : Backend V} (hb : Faithful b) {w : World V} {R G : List Nat} (hr : ReachableG b w R G) :
    ∃ v, Reachable b v ∧ v.g = w.g ∧ (∀ i, i ∉ G → v.cpu i = w.cpu i ∧ v.dev i = w.dev i ∧ v.grad i = w.grad i) ∧ v.cache = w.cache ∧ v.hits = w.hits ∧ v.hist = w.hist ∧ v.tmp = w.tmp ∧
      v.tick = w.tick ∧ v.ev = w.ev.filter (fun | .free _ => false | _ => true) ∧
      ∀ c : Call V, (∀ a ∈ c.arrays, a ∈ R) → ArgsOK b w c ∨ Call.atomic c → (step b w c).map Prod.fst = (step b v c).map Prod.fst := by
  have hi0 := Inv.initC (V := V) b
  obtain ⟨v, hv, ha⟩ := hr.sim hb hi0 hi0.inv ⟨rfl, fun _ _ => rfl, fun _ _ => rfl, fun _ _ => rfl, rfl⟩
  obtain ⟨i1, _, _⟩ := hr.inv hb hi0
  have hvr : Reachable b v := hv.reachable .init
  refine ⟨v, hvr, by rw [ha.same], fun i hi => ⟨ha.cpu i hi, ha.dev i hi, ha.grad i hi⟩, by rw [ha.same], by rw [ha.same], by rw [ha.same], by rw [ha.same], by rw [ha.same], ?_,
    fun c hc hok => ?_⟩
  · have e : unfreed v.ev = v.ev := Reachable.no_free hb hvr
    rw [← e, ha.ev]; rfl
  · have hsub : ∀ i, Live w R i ∨ w.g.length ≤ i → i ∉ G := fun i hi hG => hi.elim (i1.dead i hG).2 (by have := (i1.dead i hG).1; omega)
    have rel := agree_step (b := b) i1.inv (ha.mono hsub) (live_wcl i1.inv R) (c := c) (fun a ha => .inl (.root (hc a ha))) (fun a e => by
      subst e
      rcases hok with h | h
      · exact h.1
      · cases h)
    cases h1 : step b w c <;> cases h2 : step b v c <;> rw [h1, h2] at rel <;> simp only [RelE] at rel
    · simp [Except.map, rel]
    · simp [Except.map, rel.1]

/-- C55: nothing is used after it was collected.  A collected array exists no more for the program: it is not alive and never becomes alive again, it has no host data, no device memory and no
gradient, and no call ever gives it any again. -/
theorem C55_dead {b : Backend V} (hb : Faithful b) {w w' : World V} {R G R' G' : List Nat} (hr : ReachableG b w R G) (h : RunsG b w R G w' R' G') {i : Nat} (hi : i ∈ G) :
    ¬ Live w' R' i ∧ w'.cpu i = none ∧ w'.dev i = none ∧ w'.grad i = none := by
  obtain ⟨i1, _, _⟩ := hr.inv hb (Inv.initC b)
  obtain ⟨i2, _, s⟩ := h.inv hb i1
  exact ⟨(i2.dead i (s hi)).2, i2.gone i (s hi)⟩

/-- C55: what a call on arrays the program refers to changes.  Arrays that existed and are not alive keep what they have; in particular none of them gets memory or a gradient. -/
theorem C55_footprint {b : Backend V} (hb : Faithful b) {w w' : World V} {R G : List Nat} (hr : ReachableG b w R G) {c : Call V} (hc : ∀ a ∈ c.arrays, a ∈ R) (hok : ArgsOK b w c) {o : Out V}
    (hs : step b w c = .ok (o, w')) {i : Nat} (hlt : i < w.g.length) (hl : ¬ Live w R i) : w'.cpu i = w.cpu i ∧ w'.dev i = w.dev i ∧ w'.grad i = w.grad i ∧ ¬ Live w' (held R o) i := by
  obtain ⟨i1, _, _⟩ := hr.inv hb (Inv.initC b)
  obtain ⟨h1, h2, h3⟩ := step_foot hb i1.inv hc hok hs hlt hl
  exact ⟨h1, h2, h3, fun hl' => (step_live hb i1.inv hc hok hs hl').elim hl (by omega)⟩

/-- C55: the device memory discipline with `free`: no use after free, no double free, no leak.  Every device operation is legitimate after the ones before it, and an array has device memory
that was allocated and not freed only if it has not been collected. -/
theorem C55_discipline {b : Backend V} (hb : Faithful b) {w : World V} {R G : List Nat} (hr : ReachableG b w R G) :
    DevTraceOK w.ev ∧ ∀ i, (Allocated w.ev i ↔ (w.dev i).isSome) ∧ (i ∈ G → ¬ Allocated w.ev i) := by
  obtain ⟨i1, _, _⟩ := hr.inv hb (Inv.initC b)
  have he : EvSt _ _ _ _ := i1.inv.winv.ev
  refine ⟨he.ok, fun i => ⟨(he.dev i).symm, fun hG hA => ?_⟩⟩
  have := (he.dev i).2 hA
  rw [(i1.gone i hG).2.1] at this
  cases this

/-- C55: the values of arrays are not affected: whatever else the program does and drops and whatever is collected, an array the program still refers to is computed and read back with the
value it always had. -/
theorem C55_computes {b : Backend V} (hb : Faithful b) {w : World V} {R G : List Nat} (hr : ReachableG b w R G) {a : Nat} (ha : a ∈ R) :
    ComputesG b w R G a (strided b w a) ∧ (NoOffsetReshape w.g a → ComputesG b w R G a (value b w a)) := by
  obtain ⟨i1, _, _⟩ := hr.inv hb (Inv.initC b)
  exact ⟨computesG_strided hb i1 ha, fun hno => computesG_value hb i1 ha hno⟩

/-- On CUDA: a row sum (array 1) is subtracted (array 3) and the result computed and read; the program then keeps only the matrix (array 0); the interpreter collects 2, 3 and 1 in some order. -/
def gcProg : List (Demo.Act Int) := [.call (.array Demo.m23), .call (.sum 0 (.tuple [0]) true), .call (.bin .sub 0 1), .call (.materialize 3), .call (.tolist 3), .drop [0], .collect 2, .collect 3,
  .collect 1]

/-- The device memory of the collected arrays is freed, that of the matrix is not; the matrix still works: computing with it gives arrays 4, 5. -/
example : ReachableG Demo.cuda (Demo.afterG Demo.cuda gcProg).1 [0] [1, 3, 2] ∧ (Demo.afterG Demo.cuda gcProg).1.ev = [.alloc 1 3, .alloc 0 6, .copyIn 0, .launch 1 [0], .alloc 3 6, .copyIn 0,
      .launch 3 [0, 1], .copyOut 3, .free 3, .free 1] ∧
    ((Demo.actsB Demo.cuda (Demo.afterG Demo.cuda gcProg) [.call (.un .neg 0), .call (.materialize 4)]).map fun s => (Demo.listOfW Demo.cuda s.1 4)) = some (some ([2, 3], [-1, -2, -3, -4, -5, -6])) := by
  refine ⟨?_, by decide +kernel, by decide +kernel⟩
  have := Demo.reachG (b := Demo.cuda) (as := gcProg) Demo.cuda_faithful (by decide +kernel)
  have e1 : (Demo.afterG Demo.cuda gcProg).2.1 = [0] := by decide +kernel
  have e2 : (Demo.afterG Demo.cuda gcProg).2.2 = [1, 3, 2] := by decide +kernel
  rw [e1, e2] at this; exact this

/-- Gradients: after `y = x * x; y.backward()` (`x`, `y` are arrays 0 and 1) a program that keeps only `x` keeps `x.grad` (array 5) and what it is computed from, not `y`. -/
def gcGrad : List (Demo.Act Int) := [.call (.array Demo.m23), .call (.bin .mul 0 0), .call (.backward 1), .drop [0], .collect 1]

example : ReachableG Demo.py (Demo.afterG Demo.py gcGrad).1 [0] [1] ∧ Demo.liveSet (Demo.afterG Demo.py gcGrad).1 [0] = [5, 3, 4, 2, 0] ∧
    ((Demo.actsB Demo.py (Demo.afterG Demo.py gcGrad) [.call (.grad 0), .call (.materialize 5)]).map fun s => (Demo.listOfW Demo.py s.1 5)) = some (some ([2, 3], [2, 4, 6, 8, 10, 12])) := by
  refine ⟨?_, by decide +kernel, by decide +kernel⟩
  have := Demo.reachG (b := Demo.py) (as := gcGrad) Demo.py_faithful (by decide +kernel)
  have e1 : (Demo.afterG Demo.py gcGrad).2.1 = [0] := by decide +kernel
  have e2 : (Demo.afterG Demo.py gcGrad).2.2 = [1] := by decide +kernel
  rw [e1, e2] at this; exact this

/-- Interrupted `backward`: `y = -(-x)` (`y` is array 2), left when `-x` (array 1) had its gradient (array 4) and `x` had none.  The program catches the exception, keeps only `-x` and then
only its gradient, which can still be computed and read. -/
def gcHalf : List (Demo.Act Int) := [.drop [1], .collect 2, .call (.grad 1), .call (.materialize 4), .drop [4], .collect 1, .collect 0]

def gcHalfStart : Demo.GState Int := (halfway, [2, 1, 0], [])

def gcHalfEnd : Demo.GState Int := (Demo.actsB Demo.py gcHalfStart gcHalf).getD gcHalfStart

theorem gcHalf_reach : ReachableG Demo.py halfway [2, 1, 0] [] := by
  have h := Demo.reachG (b := Demo.py) (as := twiceNeg.map .call) Demo.py_faithful (by decide +kernel)
  have e1 : (Demo.afterG Demo.py (twiceNeg.map .call)).1 = Demo.after twiceNeg := rfl
  have e2 : (Demo.afterG Demo.py (twiceNeg.map .call)).2.1 = [2, 1, 0] := by decide +kernel
  have e3 : (Demo.afterG Demo.py (twiceNeg.map .call)).2.2 = [] := by decide +kernel
  rw [e1, e2, e3] at h
  exact .stopped h (by decide) (argsOKb_sound (c := .backward 2) (by decide +kernel) ((Demo.reach (cs := twiceNeg) (by decide +kernel)).inv Demo.py_faithful).winv.wf (by decide +kernel)) halfway_stopped

example : ReachableG Demo.py gcHalfEnd.1 gcHalfEnd.2.1 gcHalfEnd.2.2 ∧ gcHalfEnd.2.1 = [4] ∧ gcHalfEnd.2.2 = [0, 1, 2] ∧ Demo.listOfW Demo.py gcHalfEnd.1 4 = some ([2, 3], [-1, -1, -1, -1, -1, -1]) := by
  refine ⟨?_, by decide +kernel, by decide +kernel, by decide +kernel⟩
  obtain ⟨s, hs⟩ := Option.isSome_iff_exists.1 (show (Demo.actsB Demo.py gcHalfStart gcHalf).isSome = true by decide +kernel)
  have e : gcHalfEnd = s := by unfold gcHalfEnd; rw [hs]; rfl
  rw [e]
  exact Demo.actsB_sound (s := gcHalfStart) Demo.py_faithful (Inv.initC _) gcHalf_reach hs

end Whale.Props
