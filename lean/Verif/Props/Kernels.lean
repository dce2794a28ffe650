import Verif.Proofs.Launch
import Verif.Proofs.DemoDev
/-
Properties of the generated kernels: memory safety (C22), concurrent execution on a CPU (C23) and on a GPU (C24).

In all of them `K` is any kernel that `a.materialize()` runs, at any point of any history: it computes array `f` and is passed the buffers of the arrays `ins`; those
hold the elements of these arrays in row-major order (C19, C21).  `out` is the output buffer with arbitrary contents.
-/
namespace Whale.Props
open Whale Mat Hist Kern Codegen
variable {V : Type}

/-- Demonstration program: matrix plus its transposed product with a column sum; array 4 is the root, array 2 a reduction. -/
def kdemo : List (Call Int) := [.array Demo.m23, .transpose 0 [1, 0], .sum 1 (.tuple [0]) true, .bin .mul 1 2]

/-! ### C22 -/

/-- C22: every execution that the backend's language allows ends without a fault (an out-of-range or foreign read, a store outside the buffer, an undeclared or
redeclared variable, a division by zero), its stores hit every cell of the output buffer exactly once and nothing else, and they leave the elements of `f` there. -/
theorem C22_memory_safe {b : Backend V} (hb : Faithful b) {w : World V} (hr : Reachable b w) {a : Nat} (ha : Computed w.g a) (hns : NoScalarReshape w.g a)
    {f : Nat} {ins : List Nat} {sch : Schedule} {K : Kernel} (hG : Generates b.isGpu w.g a f ins sch K)
    {out : List V} (hout : (out.length : Int) = prod (w.g.shape f)) {r : Option (List (Int × V))}
    (hrun : Allowed b (machine b K out (ins.map fun i => (value b w i).flatten)) sch K.body r) :
    ∃ ws, r = some ws ∧ (ws.map (·.1)).Perm (irange out.length) ∧ applyWrites out ws = (value b w f).flatten := by
  have hi := (hr.inv hb).winv
  obtain ⟨t, F, n, n', _, hf, _, hE, hR, rfl, hs, hK⟩ := hG.ready hi.wf ha hns
  have hnn := hi.nn f hf
  have hm := memOK_machine (b := b) (o := out) hi.wf hE hK
  obtain ⟨sch', K', n'', e1, e2, _, h3⟩ := kernel_any (b := b) hi.wf hE hR hm (by simpa [machine] using hout) hnn n
  rw [hs] at e1; cases e1
  rw [hK] at e2; cases e2
  obtain ⟨ws, rfl, hp⟩ := h3 r hrun
  refine ⟨ws, rfl, ?_, applyWrites_stores hi.wf hf hnn hp hout⟩
  rw [hout, ← storesOf_addr (A := b.A) hnn]
  exact hp.map _

/-- C22: there is such an execution, and the only arrays the kernel's text reads are its input parameters; `out` is never read. -/
theorem C22_reads {b : Backend V} (hb : Faithful b) {w : World V} (hr : Reachable b w) {a : Nat} (ha : Computed w.g a) (hns : NoScalarReshape w.g a)
    {f : Nat} {ins : List Nat} {sch : Schedule} {K : Kernel} (hG : Generates b.isGpu w.g a f ins sch K) :
    K.params.length = ins.length + 1 ∧ K.params.head?.map (·.1) = some .out ∧ f ∉ ins ∧ ∀ x ∈ K.body.reads, x ∈ K.params.tail.map (·.1) ∧ x ≠ .out := by
  have hi := (hr.inv hb).winv
  obtain ⟨t, F, n, n', _, hf, hfc, hE, hR, rfl, hs, hK⟩ := hG.ready hi.wf ha hns
  have hpar := codegen_params hK
  refine ⟨?_, by rw [hpar]; rfl, ?_, fun x hx => ⟨by rw [hpar]; exact isArg_params (codegen_reads hK x hx), ?_⟩⟩
  · rw [hpar]; simp [params]
  · intro hm
    rcases List.mem_append.1 hm with hm | hm
    · exact hfc (RootWF.bufs hE.wf f (mem_dedup.1 hm)).2.2
    · exact Nat.lt_irrefl _ (hE.wf.refs_lt f (mem_dedup.1 hm))
  · rintro rfl
    rcases codegen_reads hK _ hx with ⟨i, _, h⟩ | ⟨i, _, h⟩ <;> cases h

/-- The hypotheses are met, on the Python and on the GPU backend. -/
example : Reachable Demo.py (Demo.after kdemo) ∧ Computed (Demo.after kdemo).g 4 ∧ NoScalarReshape (Demo.after kdemo).g 4 ∧ prod ((Demo.after kdemo).g.shape 4) = 6 ∧
    ∃ ins sch K, Generates Demo.py.isGpu (Demo.after kdemo).g 4 4 ins sch K :=
  ⟨Demo.reach (by decide +kernel), ⟨by decide +kernel, by decide +kernel, by decide +kernel⟩,
    noScalarReshape_of ((Demo.reach (cs := kdemo) (by decide +kernel)).inv Demo.py_faithful).winv.wf (by decide +kernel) (by decide +kernel), by decide +kernel, genOf_exists (by decide +kernel)⟩

/-! ### C23 -/

/-- C23: run its iterations one after the other and a CPU kernel succeeds; run the iterations of its parallel and vectorized loops concurrently, in whatever
interleaving, and it succeeds as well and leaves the same output buffer. -/
theorem C23_parallel {b : Backend V} (hb : Faithful b) (hcpu : b.isGpu = false) {w : World V} (hr : Reachable b w) {a : Nat} (ha : Computed w.g a)
    (hns : NoScalarReshape w.g a) {f : Nat} {ins : List Nat} {sch : Schedule} {K : Kernel} (hG : Generates b.isGpu w.g a f ins sch K)
    {out : List V} (hout : (out.length : Int) = prod (w.g.shape f)) {m : Machine V} (hmm : m = machine b K out (ins.map fun i => (value b w i).flatten)) :
    (∃ o, par m K.body (fun _ => none) o) ∧ ∃ s, exec m K.body (fun _ => none) = some s ∧
      ∀ o, par m K.body (fun _ => none) o → ∃ p, o = some p ∧ p.writes.Perm s.writes ∧ applyWrites out p.writes = applyWrites out s.writes := by
  subst hmm
  have hi := (hr.inv hb).winv
  obtain ⟨t, F, n, n', _, hf, _, hE, hR, rfl, hs, hK⟩ := hG.ready hi.wf ha hns
  have hnn := hi.nn f hf
  have hm := memOK_machine (b := b) (o := out) hi.wf hE hK
  obtain ⟨sch', K', n'', e1, e2, _, h3⟩ := kernel_cpu hi.wf hE hR hm (by simpa [machine] using hout) n
  rw [hcpu] at hs
  rw [hs] at e1; cases e1
  rw [hK] at e2; cases e2
  obtain ⟨σ', e, _⟩ := h3.seq
  refine ⟨h3.ex, _, e, fun o ho => ?_⟩
  obtain ⟨σ2, ws2, rfl, _, hp⟩ := h3.par o ho
  exact ⟨_, rfl, hp, (applyWrites_stores hi.wf hf hnn hp hout).trans (applyWrites_stores hi.wf hf hnn (List.Perm.refl _) hout).symm⟩

/-- The hypotheses are met by the C backend: the reduction's kernel. -/
example : Reachable Demo.clang (Demo.afterOn Demo.clang kdemo) ∧ Computed (Demo.afterOn Demo.clang kdemo).g 4 ∧ NoScalarReshape (Demo.afterOn Demo.clang kdemo).g 4 ∧
    ∃ ins sch K, Generates Demo.clang.isGpu (Demo.afterOn Demo.clang kdemo).g 4 2 ins sch K :=
  ⟨Demo.reachOn Demo.clang_faithful (by decide +kernel), ⟨by decide +kernel, by decide +kernel, by decide +kernel⟩,
    noScalarReshape_of ((Demo.reachOn (cs := kdemo) Demo.clang_faithful (by decide +kernel)).inv Demo.clang_faithful).winv.wf (by decide +kernel) (by decide +kernel), genOf_exists (by decide +kernel)⟩

/-! ### C24 -/

/-- C24: launch a GPU kernel with the grid derived from its schedule and let every thread `t` of the grid run the kernel body, ending in `f t`.  No thread fails, every
cell of the output is stored by exactly one thread exactly once (so threads beyond the extent store nothing), and every interleaving of the stores leaves the elements of
the array in the buffer. -/
theorem C24_launch {b : Backend V} (hb : Faithful b) (hgpu : b.isGpu = true) {w : World V} (hr : Reachable b w) {a : Nat} (ha : Computed w.g a)
    (hns : NoScalarReshape w.g a) {f : Nat} {ins : List Nat} {sch : Schedule} {K : Kernel} (hG : Generates b.isGpu w.g a f ins sch K)
    {out : List V} (hout : (out.length : Int) = prod (w.g.shape f)) {m : Machine V} (hmm : m = machine b K out (ins.map fun i => (value b w i).flatten))
    {outcome : Thread → Option (St V)} (hrun : ∀ t ∈ threads sch, par (onThread m t) K.body (fun _ => none) (outcome t)) :
    (∀ t ∈ threads sch, (outcome t).isSome) ∧
      ((threads sch).flatMap fun t => (writesOf (outcome t)).map (·.1)).Perm (irange out.length) ∧
      ∀ ws, Interleave ((threads sch).map fun t => writesOf (outcome t)) ws → applyWrites out ws = (value b w f).flatten := by
  have key : ∀ ws, Interleave ((threads sch).map fun t => writesOf (outcome t)) ws → (∀ t ∈ threads sch, (outcome t).isSome) →
      (ws.map (·.1)).Perm (irange out.length) ∧ applyWrites out ws = (value b w f).flatten := by
    intro ws hws hall
    obtain ⟨ws', e, h1, h2⟩ := C22_memory_safe hb hr ha hns hG hout (r := some ws) (by
      unfold Allowed
      rw [if_pos hgpu]
      subst hmm
      exact ⟨outcome, hrun, Or.inl ⟨hall, ws, hws, rfl⟩⟩)
    cases e
    exact ⟨h1, h2⟩
  have hall : ∀ t ∈ threads sch, (outcome t).isSome := by
    by_contra hn
    obtain ⟨ws', e, _⟩ := C22_memory_safe hb hr ha hns hG hout (r := none) (by
      unfold Allowed
      rw [if_pos hgpu]
      subst hmm
      exact ⟨outcome, hrun, Or.inr ⟨hn, rfl⟩⟩)
    cases e
  refine ⟨hall, ?_, fun ws hws => (key ws hws hall).2⟩
  have := (key _ (Interleave.flatten _) hall).1
  rwa [← List.flatMap_def, List.map_flatMap] at this

/-- The hypotheses are met by the GPU backend: 3 * 256 threads for a 3 × 2 result, 762 of which store nothing; the reduction is one of its inputs. -/
example : Reachable Demo.cuda (Demo.afterOn Demo.cuda kdemo) ∧ Computed (Demo.afterOn Demo.cuda kdemo).g 4 ∧ NoScalarReshape (Demo.afterOn Demo.cuda kdemo).g 4 ∧
    (∃ ins sch K, Generates Demo.cuda.isGpu (Demo.afterOn Demo.cuda kdemo).g 4 2 ins sch K) ∧
    ((genOf true (Demo.afterOn Demo.cuda kdemo).g 4 4).map fun r => (threads r.2.1).length) = some 768 :=
  ⟨Demo.reachOn Demo.cuda_faithful (by decide +kernel), ⟨by decide +kernel, by decide +kernel, by decide +kernel⟩,
    noScalarReshape_of ((Demo.reachOn (cs := kdemo) Demo.cuda_faithful (by decide +kernel)).inv Demo.cuda_faithful).winv.wf (by decide +kernel) (by decide +kernel), genOf_exists (by decide +kernel),
    by decide +kernel⟩

end Whale.Props
