import Verif.Proofs.Strict
import Verif.Props.Kernels
/-
C36: index arithmetic in Python and in C.

`m.withArith ar` is the machine `m` with integer operations as in Python (`.python`: floor division and modulus, `and`/`or` return an operand), as in C (`.c`: division and
remainder truncate, `&&`/`||` give 0 or 1) or `.strict`: an operation on which the two differ, or that divides by zero, is a fault. (`ar.lim = none` is true of these three; the fourth arithmetic is for C49.)
-/
namespace Whale.Props
open Whale Mat Hist Kern Codegen
variable {V : Type}

/-- C36 on a CPU: whatever the integer arithmetic, a kernel runs to its end without a fault – in particular under the strict arithmetic, so that no index operation in
it divides by zero or has different results in the two languages – and always in the same final state with the same stores. -/
theorem C36_cpu {b : Backend V} (hb : Faithful b) (hcpu : b.isGpu = false) {w : World V} (hr : Reachable b w) {a : Nat} (ha : Computed w.g a) (hns : NoScalarReshape w.g a)
    {f : Nat} {ins : List Nat} {sch : Schedule} {K : Kernel} (hG : Generates b.isGpu w.g a f ins sch K)
    {out : List V} (hout : (out.length : Int) = prod (w.g.shape f)) {m : Machine V} (hmm : m = machine b K out (ins.map fun i => (value b w i).flatten)) :
    ∃ s, s.ret = false ∧ ∀ ar, ar.lim = none → exec (m.withArith ar) K.body (fun _ => none) = some s := by
  subst hmm
  have hi := (hr.inv hb).winv
  obtain ⟨t, F, n, n', _, hf, _, hE, hR, rfl, hs, hK⟩ := hG.ready hi.wf ha hns
  have hm := memOK_machine (b := b) (o := out) hi.wf hE hK
  obtain ⟨sch', K', n'', e1, e2, _, h3⟩ := kernel_cpu (m := (machine b K out (((argsOf F).bufs ++ (argsOf F).fncs).map fun i => (value b w i).flatten)).withArith .strict)
    hi.wf hE hR ⟨(fun _ h => by cases h), hm.fnc, hm.buf⟩ (by simpa [machine] using hout) n
  rw [hcpu] at hs
  rw [hs] at e1; cases e1
  rw [hK] at e2; cases e2
  obtain ⟨σ', e, _⟩ := h3.seq
  exact ⟨_, rfl, fun ar har => exec_strict har e⟩

/-- C36 on a GPU: the same for every thread of the launch. -/
theorem C36_gpu {b : Backend V} (hb : Faithful b) (hgpu : b.isGpu = true) {w : World V} (hr : Reachable b w) {a : Nat} (ha : Computed w.g a) (hns : NoScalarReshape w.g a)
    {f : Nat} {ins : List Nat} {sch : Schedule} {K : Kernel} (hG : Generates b.isGpu w.g a f ins sch K)
    {out : List V} (hout : (out.length : Int) = prod (w.g.shape f)) {m : Machine V} (hmm : m = machine b K out (ins.map fun i => (value b w i).flatten)) :
    ∀ t ∈ threads sch, ∃ s, ∀ ar, ar.lim = none → exec (onThread (m.withArith ar) t) K.body (fun _ => none) = some s := by
  subst hmm
  have hi := (hr.inv hb).winv
  obtain ⟨t, F, n, n', _, hf, _, hE, hR, rfl, hs, hK⟩ := hG.ready hi.wf ha hns
  rw [hgpu] at hs
  have hnp := kernel_noPar hE hs hK
  have hnn := hi.nn f hf
  have hm := memOK_machine (b := b) (o := out) hi.wf hE hK
  let m := machine b K out (((argsOf F).bufs ++ (argsOf F).fncs).map fun i => (value b w i).flatten)
  obtain ⟨sch', K', n'', e1, e2, _, h3, _⟩ := kernel_gpu (m := m.withArith .strict) hi.wf hE hR ⟨(fun _ h => by cases h), hm.fnc, hm.buf⟩ (by simpa [m, machine] using hout) hnn n
  rw [hs] at e1; cases e1
  rw [hK] at e2; cases e2
  have hall : ∀ t ∈ threads sch, (exec (onThread (m.withArith .strict) t) K.body (fun _ => none)).isSome := by
    by_contra hn
    obtain ⟨ws, e, _⟩ := h3 none ⟨fun t => exec (onThread (m.withArith .strict) t) K.body (fun _ => none), fun t _ => (par_det hnp _ _).2 rfl, Or.inr ⟨hn, rfl⟩⟩
    cases e
  intro th hth
  obtain ⟨s, hs⟩ := Option.isSome_iff_exists.1 (hall th hth)
  exact ⟨s, fun ar har => exec_strict (m := onThread m th) har hs⟩

/-- The strict arithmetic is strict: it is a fault to divide a negative number, to take its remainder, to divide by zero, or to combine with "and" numbers other than truth values. -/
example : iarith .strict .Floordiv (-1) 2 = none ∧ iarith .python .Floordiv (-1) 2 = some (-1) ∧ iarith .c .Floordiv (-1) 2 = some 0 ∧ iarith .strict .Mod (-1) 2 = none ∧
    iarith .strict .And 3 5 = none ∧ iarith .strict .Floordiv 7 0 = none ∧ iarith .strict .Floordiv 7 2 = some 3 := by decide

/-- Demonstration program whose kernel divides, takes remainders and branches: pad, reshape (through a product, so that it is computed in one kernel) and dilate. -/
def adiv : List (Call Int) := [.array Demo.m23, .pad 0 1 1 1, .dilate 1 0 2, .reshape 2 [5, 3], .un .neg 3]

example : Reachable Demo.clang (Demo.afterOn Demo.clang adiv) ∧ Computed (Demo.afterOn Demo.clang adiv).g 4 ∧ NoScalarReshape (Demo.afterOn Demo.clang adiv).g 4 ∧
    ∃ ins sch K, Generates Demo.clang.isGpu (Demo.afterOn Demo.clang adiv).g 4 4 ins sch K :=
  ⟨Demo.reachOn Demo.clang_faithful (by decide +kernel), ⟨by decide +kernel, by decide +kernel, by decide +kernel⟩,
    noScalarReshape_of ((Demo.reachOn (cs := adiv) Demo.clang_faithful (by decide +kernel)).inv Demo.clang_faithful).winv.wf (by decide +kernel) (by decide +kernel), genOf_exists (by decide +kernel)⟩

end Whale.Props
