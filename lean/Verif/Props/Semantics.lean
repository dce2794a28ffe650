import Verif.Proofs.SemRun
import Verif.Proofs.Numbers
import Verif.Props.Agree
import Verif.Props.Text
/-
C48: what the generated source text computes when it is run as a program of its language.
-/
namespace Whale.Props
open Whale Mat Hist Kern Codegen Algo Syntax Sem
variable {V : Type}

/-- `text` is the source that materializing `a` compiles, and runs with schedule `sch`, to compute array `f` from the buffers of the arrays `ins`. -/
def Source (L : Lang) (isGpu : Bool) (g : Graph V) (a f : Nat) (ins : List Nat) (sch : Schedule) (digest text : Str) : Prop :=
  ∃ K, Generates isGpu g a f ins sch K ∧ Compiles L isGpu g a f digest text K

/-- The common part: a call of the generated function does what the statement tree does. -/
theorem call_kernel {L : Lang} {N : Num V} {b : Backend V} (hb : Faithful b) {w : World V} (hr : Reachable b w) {a : Nat} (ha : Computed w.g a) (hns : NoScalarReshape w.g a)
    {f : Nat} {ins : List Nat} {sch : Schedule} {K : Kernel} (hG : Generates b.isGpu w.g a f ins sch K) (hI : IntLaws L N) (hA : Agrees L N (w.g.dtype f) b.A)
    (hel : ∀ i ∈ ins, ∀ v ∈ (value b w i).flatten, Elem L N (w.g.dtype f) v) (gpu : Bool → Dim3 → Option Int) (gpuV : Str → Str → Option Int)
    (hgpu : ∀ thread d v, gpu thread d = some v → L = .cuda ∧ gpuV (if thread then "threadIdx".toList else "blockIdx".toList) (LangSpec.dimText d) = some v)
    {B : Int → Prop} {ar : IntArith} (har : ∀ op i j r, iarith ar op i j = some r → iarith (if L = .python then .python else .c) op i j = some r ∧ B r)
    (hgB : ∀ thread d v, gpu thread d = some v → B v) (hd : ∀ n i, B n → 0 ≤ i → i < n → B i) (h01 : B 0 ∧ B 1) (hlits : Stmt.lits B K.body) {out : List V} {st : St V}
    (hex : exec { machine b K out (ins.map fun i => (value b w i).flatten) with ar := ar, gpu := gpu } K.body (fun _ => none) = some st) (name : Str) :
    Sem.Out (¬ Total L N (w.g.dtype f) B (Uses w.g a)) (call L N gpuV (K.program L name) (out :: ins.map fun i => (value b w i).flatten)) fun l => l = applyWrites out st.writes := by
  have hi := (hr.inv hb).winv
  obtain ⟨hlen, _, _, hreads⟩ := C22_reads hb hr ha hns hG
  have hsc := C35_scoped hb hr ha hns hG
  have hG' := hG
  obtain ⟨t', F', n', n'', _, _, _, hE, _, _, _, hK'⟩ := hG'.ready hi.wf ha hns
  obtain ⟨funcs, t, F, n, n1, hc, hf, hF, rfl, hs, hK⟩ := hG
  have hdt : F.outDtype = w.g.dtype f := by
    obtain ⟨funcs2, t2, e2, _, _, _, htg, _⟩ := convert_good hi.wf ha.1 hns ha.2.1 ha.2.2
    rw [hc] at e2; cases e2
    obtain ⟨_, _, F2, hF2, hE2, _⟩ := htg.entry f hf
    rw [hF] at hF2; cases hF2
    exact hE2.dtype
  have hpar := codegen_params hK
  have hsh := codegen_shaped (convert_neat hi.wf ha.1 hns hc f F hF) hK
  rw [hdt] at hsh hpar
  refine call_out (S := ⟨⟨L, N, if L = .python then ["math".toList] else ["include <stdint.h>".toList, "include <math.h>".toList], gpuV⟩, _, w.g.dtype f, B, _, Uses w.g a⟩)
    (setup_ok (Uses w.g a) hI hA har (fun th d v h => ⟨(hgpu th d v h).1, (hgpu th d v h).2, hgB th d v h⟩) hd h01)
    (ps := K.params.tail) (by rw [hpar]; rfl) hsc (tidy_of hsh hlits fun x hx => (hreads x hx).2) (by rw [List.length_tail, hlen]; simp) rfl ?_ rfl hex name
  intro l hl v hv
  obtain ⟨i, hi, rfl⟩ := List.mem_map.1 hl
  exact hel i hi v hv

/-- The stores of a kernel on a CPU make up the array. -/
theorem cpu_stores {b : Backend V} (hb : Faithful b) (hcpu : b.isGpu = false) {w : World V} (hr : Reachable b w) {a : Nat} (ha : Computed w.g a) (hns : NoScalarReshape w.g a)
    {f : Nat} {ins : List Nat} {sch : Schedule} {K : Kernel} (hG : Generates b.isGpu w.g a f ins sch K) {out : List V} (hout : (out.length : Int) = prod (w.g.shape f)) :
    ∃ s, (∀ ar, ar.lim = none → exec ((machine b K out (ins.map fun i => (value b w i).flatten)).withArith ar) K.body (fun _ => none) = some s) ∧
      applyWrites out s.writes = (value b w f).flatten := by
  obtain ⟨s, _, hex⟩ := C36_cpu hb hcpu hr ha hns hG hout rfl
  have hval : applyWrites out s.writes = (value b w f).flatten := by
    obtain ⟨⟨o, ho⟩, s', hs', h⟩ := C23_parallel hb hcpu hr ha hns hG hout rfl
    have he : exec (machine b K out (ins.map fun i => (value b w i).flatten)) K.body (fun _ => none) = some s := hex (machine b K out (ins.map fun i => (value b w i).flatten)).ar (by simp only [machine]; split <;> rfl)
    rw [hs'] at he
    cases he
    by_cases hc : b.isC = true
    · obtain ⟨p, rfl, _, h2⟩ := h o ho
      obtain ⟨ws, e, _, h3⟩ := C22_memory_safe hb hr ha hns hG hout (r := some p.writes) (by
        unfold Allowed
        rw [if_neg (by rw [hcpu]; simp), if_pos hc]
        exact ⟨_, ho, rfl⟩)
      cases e
      rw [← h2, h3]
    · obtain ⟨ws, e, _, h3⟩ := C22_memory_safe hb hr ha hns hG hout (r := some s.writes) (by
        unfold Allowed
        rw [if_neg (by rw [hcpu]; simp), if_neg hc, hs']
        rfl)
      cases e
      exact h3
  exact ⟨s, hex, hval⟩

/-- The stores of all threads, in any order, make up the array. -/
theorem gpu_stores {b : Backend V} (hb : Faithful b) (hgpu : b.isGpu = true) {w : World V} (hr : Reachable b w) {a : Nat} (ha : Computed w.g a) (hns : NoScalarReshape w.g a)
    {f : Nat} {ins : List Nat} {sch : Schedule} {K : Kernel} (hG : Generates b.isGpu w.g a f ins sch K) {out : List V} (hout : (out.length : Int) = prod (w.g.shape f)) :
    ∃ s : Thread → St V, (∀ t ∈ threads sch, ∀ ar, ar.lim = none → exec (onThread ((machine b K out (ins.map fun i => (value b w i).flatten)).withArith ar) t) K.body (fun _ => none) = some (s t)) ∧
      ∀ order : List Thread, order.Perm (threads sch) → applyWrites out (order.flatMap fun t => (s t).writes) = (value b w f).flatten := by
  have hthr := C36_gpu hb hgpu hr ha hns hG hout rfl
  haveI : Nonempty (St V) := ⟨⟨fun _ => none, [], false⟩⟩
  choose! s hs using hthr
  have hnp : ∀ t ∈ threads sch, par (onThread (machine b K out (ins.map fun i => (value b w i).flatten)) t) K.body (fun _ => none) (some (s t)) := by
    intro t ht
    have hi := (hr.inv hb).winv
    obtain ⟨t', F, n, n', _, hf, _, hE, hR, rfl, hsch, hK⟩ := hG.ready hi.wf ha hns
    rw [hgpu] at hsch
    exact (par_det (kernel_noPar hE hsch hK) _ _).2 (hs t ht (machine b K out (((argsOf F).bufs ++ (argsOf F).fncs).map fun i => (value b w i).flatten)).ar (by simp only [machine]; split <;> rfl)).symm
  obtain ⟨_, h1, h2⟩ := C24_launch hb hgpu hr ha hns hG hout rfl hnp
  refine ⟨s, hs, fun order hord => ?_⟩
  have hfl : ((order.flatMap fun t => (s t).writes)).Perm (((threads sch).map fun t => writesOf (some (s t))).flatten) := by
    rw [← List.flatMap_def]
    exact hord.flatMap_right _
  have hflat : (((threads sch).map fun t => writesOf (some (s t))).flatten.map (·.1)).Perm (irange out.length) := by
    rw [← List.flatMap_def, List.map_flatMap]; exact h1
  rw [← h2 _ (Interleave.flatten _)]
  refine applyWrites_perm hfl ?_ ?_ out
  · exact ((hfl.map _).trans hflat).nodup_iff.2 (nodup_irange _)
  · intro x hx
    have := ((hfl.map _).trans hflat).mem_iff.1 (List.mem_map_of_mem (f := (·.1)) hx)
    exact (mem_irange.1 this).1
/-- Running the function in some threads, one after the other. -/
theorem call_threads {N : Num V} {b : Backend V} (hb : Faithful b) {w : World V} (hr : Reachable b w) {a : Nat} (ha : Computed w.g a) (hns : NoScalarReshape w.g a)
    {f : Nat} {ins : List Nat} {sch : Schedule} {K : Kernel} (hG : Generates b.isGpu w.g a f ins sch K) (hI : IntLaws .cuda N) (hA : Agrees .cuda N (w.g.dtype f) b.A)
    (hel : ∀ i ∈ ins, ∀ v ∈ (value b w i).flatten, Elem .cuda N (w.g.dtype f) v) {B : Int → Prop} {ar : IntArith}
    (har : ∀ op i j r, iarith ar op i j = some r → iarith .c op i j = some r ∧ B r) (hd : ∀ n i, B n → 0 ≤ i → i < n → B i) (h01 : B 0 ∧ B 1) (hlits : Stmt.lits B K.body)
    (hgB : ∀ t ∈ threads sch, ∀ (th : Bool) d, B (if th then t.thread d else t.block d)) {s : Thread → St V} {out : List V}
    (hs : ∀ t ∈ threads sch, exec (onThread ((machine b K out (ins.map fun i => (value b w i).flatten)).withArith ar) t) K.body (fun _ => none) = some (s t)) (name : Str) :
    ∀ (l : List Thread) (buf : List V), (∀ t ∈ l, t ∈ threads sch) → buf.length = out.length →
      Sem.Out (¬ Total .cuda N (w.g.dtype f) B (Uses w.g a))
        (l.foldlM (fun buf t => call .cuda N (threadVars t) (K.program .cuda name) (buf :: ins.map fun i => (value b w i).flatten)) buf)
        fun r => r = applyWrites buf (l.flatMap fun t => (s t).writes) := by
  intro l
  induction l with
  | nil => intro buf _ _; exact .ok rfl
  | cons t l ih =>
    intro buf hl hbuf
    rw [List.foldlM_cons]
    have hm : machine b K buf (ins.map fun i => (value b w i).flatten) = machine b K out (ins.map fun i => (value b w i).flatten) := by
      unfold machine; rw [hbuf]
    have := call_kernel (L := .cuda) (N := N) (out := buf) hb hr ha hns hG hI hA hel (fun thread d => some (if thread then t.thread d else t.block d)) (threadVars t)
      (fun th d v h => ⟨rfl, by cases h; exact threadVars_ok t th d⟩)
      har (fun th d v h => by cases h; exact hgB t (hl t List.mem_cons_self) th d) hd h01 hlits (by rw [hm]; exact hs t (hl t List.mem_cons_self)) name
    refine this.bind ?_
    rintro r rfl
    rw [List.flatMap_cons, applyWrites_append]
    exact ih _ (fun t ht => hl t (List.mem_cons_of_mem _ ht)) (by rw [applyWrites_length, hbuf])

/-- C48, Python and C: the source text of a kernel is a program, and calling it with an output array of the right length, whatever its contents, and the elements of the input
arrays leaves in the output array exactly the elements of the array it is to compute. The only other outcome is a number operation without a result (`math.log(-1)`, division by
zero, overflow); if no operation the array is built from lacks a result that does not happen either. -/
theorem C48_cpu {L : Lang} (hL : L ≠ .cuda) {N : Num V} {b : Backend V} (hb : Faithful b) (hcpu : b.isGpu = false) {w : World V} (hr : Reachable b w) {a : Nat} (ha : Computed w.g a)
    (hns : NoScalarReshape w.g a) {f : Nat} {ins : List Nat} {sch : Schedule} {digest text : Str} (hd : ∀ c ∈ digest, c ∈ "0123456789abcdef".toList)
    (hS : Source L b.isGpu w.g a f ins sch digest text) (hI : IntLaws L N) (hA : Agrees L N (w.g.dtype f) b.A)
    (hel : ∀ i ∈ ins, ∀ v ∈ (value b w i).flatten, Elem L N (w.g.dtype f) v) :
    ∃ p, parse L text = some p ∧ ∀ out : List V, (out.length : Int) = prod (w.g.shape f) →
      (call L N (fun _ _ => none) p (out :: ins.map fun i => (value b w i).flatten) = .ok (value b w f).flatten ∨
        call L N (fun _ _ => none) p (out :: ins.map fun i => (value b w i).flatten) = .error .arith) ∧
      (Total L N (w.g.dtype f) (fun _ => True) (Uses w.g a) → call L N (fun _ _ => none) p (out :: ins.map fun i => (value b w i).flatten) = .ok (value b w f).flatten) := by
  obtain ⟨K, hG, hC⟩ := hS
  refine ⟨_, C37_parse (by rw [hcpu]; simp [hL]) hd hC, fun out hout => ?_⟩
  obtain ⟨s, hex, hval⟩ := cpu_stores hb hcpu hr ha hns hG hout
  have := call_kernel (L := L) (N := N) hb hr ha hns hG hI hA hel (fun _ _ => none) (fun _ _ => none) (fun _ _ _ h => by cases h) (B := fun _ => True)
    (fun _ _ _ _ h => ⟨h, trivial⟩) (fun _ _ _ _ => trivial) (fun _ _ _ _ _ => trivial) ⟨trivial, trivial⟩ (lits_true _) (hex _ (by split <;> rfl)) (Text.kernName digest)
  rw [hval] at this
  rcases this with ⟨h1, h2⟩ | ⟨l, h1, rfl⟩
  · exact ⟨.inr h1, fun ht => absurd ht h2⟩
  · exact ⟨.inl h1, fun _ => h1⟩

/-- C48, CUDA: running the function of the source text in every thread of the launch, one thread after the other in any order, leaves in the output array exactly the elements
of the array to compute, unless a number operation has no result. (That stores of different threads may also be interleaved is C24.) -/
theorem C48_gpu {N : Num V} {b : Backend V} (hb : Faithful b) (hgpu : b.isGpu = true) {w : World V} (hr : Reachable b w) {a : Nat} (ha : Computed w.g a)
    (hns : NoScalarReshape w.g a) {f : Nat} {ins : List Nat} {sch : Schedule} {digest text : Str} (hd : ∀ c ∈ digest, c ∈ "0123456789abcdef".toList)
    (hS : Source .cuda b.isGpu w.g a f ins sch digest text) (hI : IntLaws .cuda N) (hA : Agrees .cuda N (w.g.dtype f) b.A)
    (hel : ∀ i ∈ ins, ∀ v ∈ (value b w i).flatten, Elem .cuda N (w.g.dtype f) v) :
    ∃ p, parse .cuda text = some p ∧ ∀ out : List V, (out.length : Int) = prod (w.g.shape f) → ∀ order : List Thread, order.Perm (threads sch) →
      (order.foldlM (fun buf t => call .cuda N (threadVars t) p (buf :: ins.map fun i => (value b w i).flatten)) out = .ok (value b w f).flatten ∨
        order.foldlM (fun buf t => call .cuda N (threadVars t) p (buf :: ins.map fun i => (value b w i).flatten)) out = .error .arith) ∧
      (Total .cuda N (w.g.dtype f) (fun _ => True) (Uses w.g a) →
        order.foldlM (fun buf t => call .cuda N (threadVars t) p (buf :: ins.map fun i => (value b w i).flatten)) out = .ok (value b w f).flatten) := by
  obtain ⟨K, hG, hC⟩ := hS
  refine ⟨_, C37_parse (by rw [hgpu]; simp) hd hC, fun out hout order hord => ?_⟩
  obtain ⟨s, hs, hval⟩ := gpu_stores hb hgpu hr ha hns hG hout
  have := call_threads hb hr ha hns hG hI hA hel (B := fun _ => True) (fun _ _ _ _ h => ⟨h, trivial⟩) (fun _ _ _ _ _ => trivial) ⟨trivial, trivial⟩ (lits_true _) (fun _ _ _ _ => trivial)
    (fun t ht => hs t ht .c rfl) (Text.kernName digest) order out (fun t ht => hord.mem_iff.1 ht) rfl
  rw [hval order hord] at this
  rcases this with ⟨h1, h2⟩ | ⟨l, h1, rfl⟩
  · exact ⟨.inr h1, fun ht => absurd ht h2⟩
  · exact ⟨.inl h1, fun _ => h1⟩

/-- C48 with Python's own numbers – unbounded integers and any floating point arithmetic `O` –, for arrays of any and of mixed element types. -/
theorem C48_python {F : Type} (O : Floats F) (junk : Py F) {b : Backend (Py F)} (hb : Faithful b) (hcpu : b.isGpu = false) {dt : DType} (hA : b.A = scalarOf .python (pyNum O) dt junk)
    {w : World (Py F)} (hr : Reachable b w) {a : Nat} (ha : Computed w.g a) (hns : NoScalarReshape w.g a) {f : Nat} {ins : List Nat} {sch : Schedule} {digest text : Str}
    (hd : ∀ c ∈ digest, c ∈ "0123456789abcdef".toList) (hS : Source .python b.isGpu w.g a f ins sch digest text) :
    ∃ p, parse .python text = some p ∧ ∀ out : List (Py F), (out.length : Int) = prod (w.g.shape f) →
      (call .python (pyNum O) (fun _ _ => none) p (out :: ins.map fun i => (value b w i).flatten) = .ok (value b w f).flatten ∨
        call .python (pyNum O) (fun _ _ => none) p (out :: ins.map fun i => (value b w i).flatten) = .error .arith) := by
  obtain ⟨p, hp, h⟩ := C48_cpu (by decide) hb hcpu hr ha hns hd hS (py_int O) (by rw [hA]; exact scalarOf_agrees junk py_conv) fun _ _ _ _ => rfl
  exact ⟨p, hp, fun out ho => (h out ho).1⟩

/-- C48 with the numbers of C, including overflow, conversions and truncating division, for arrays of one element type. -/
theorem C48_c {S D : Type} (O : CFloats S D) (junk : CVal S D) {b : Backend (CVal S D)} (hb : Faithful b) (hcpu : b.isGpu = false) {dt : DType}
    (hA : b.A = scalarOf .clang (cNum false O) dt junk) {w : World (CVal S D)} (hr : Reachable b w) {a : Nat} (ha : Computed w.g a) (hns : NoScalarReshape w.g a) {f : Nat} {ins : List Nat}
    {sch : Schedule} {digest text : Str} (hd : ∀ c ∈ digest, c ∈ "0123456789abcdef".toList) (hS : Source .clang b.isGpu w.g a f ins sch digest text) (hdt : w.g.dtype f = dt)
    (hel : ∀ i ∈ ins, ∀ v ∈ (value b w i).flatten, Elem .clang (cNum false O) dt v) :
    ∃ p, parse .clang text = some p ∧ ∀ out : List (CVal S D), (out.length : Int) = prod (w.g.shape f) →
      (call .clang (cNum false O) (fun _ _ => none) p (out :: ins.map fun i => (value b w i).flatten) = .ok (value b w f).flatten ∨
        call .clang (cNum false O) (fun _ _ => none) p (out :: ins.map fun i => (value b w i).flatten) = .error .arith) := by
  subst hdt
  obtain ⟨p, hp, h⟩ := C48_cpu (by decide) hb hcpu hr ha hns hd hS (c_int (by decide) false O) (by rw [hA]; exact scalarOf_agrees junk (c_conv (by decide) false O _)) hel
  exact ⟨p, hp, fun out ho => (h out ho).1⟩

/-! ### examples -/

/-- A Python session over integers and fractions. -/
def pyFrac : Backend (Py Rat) := pythonBackend (scalarOf .python (pyNum rat) .int64 (.int 0))

def fracs : Nested (Py Rat) := .node [.node [.leaf (.int 1), .leaf (.flt (5 / 2))], .node [.leaf (.int 3), .leaf (.flt (-1))]]

/-- Elements divided by the sum of their row, with a row of zeros above. -/
def fracProg : List (Call (Py Rat)) := [.array fracs, .sum 0 (.int 1) true, .bin .truediv 0 1, .pad 3 0 1 0]

def fracWorld : World (Py Rat) := Demo.afterOn pyFrac fracProg

/-- Whenever a kernel is generated it has a source. -/
theorem source_exists {L : Lang} {isGpu : Bool} (hL : L = .cuda ↔ isGpu = true) {g : Graph V} {a f : Nat} (h : (genOf isGpu g a f).isSome = true) {digest : Str}
    (hd : ∀ c ∈ digest, c ∈ "0123456789abcdef".toList) : ∃ ins sch text, Source L isGpu g a f ins sch digest text := by
  obtain ⟨ins, sch, K, hG⟩ := genOf_exists h
  obtain ⟨text, hC, _⟩ := C37_text hL hG hd
  exact ⟨ins, sch, text, K, hG, hC⟩

/-- Calling the source of the kernel of array `f`. -/
def callOf [DecidableEq V] (L : Lang) (N : Num V) (isGpu : Bool) (g : Graph V) (a f : Nat) (arrays : List (List V)) : Option (Except Fault (List V)) := do
  let s ← sourceOf L isGpu g a f "0123456789abcdef".toList
  let p ← parse L s.toList
  pure (call L N (fun _ _ => none) p arrays)

/-- The hypotheses of `C48_python` are met, and running the generated text gives the quotients – or, if a row adds up to zero, a division by zero. -/
example : Faithful pyFrac ∧ Reachable pyFrac fracWorld ∧ Computed fracWorld.g 4 ∧ NoScalarReshape fracWorld.g 4 ∧ (∃ ins sch text, Source .python pyFrac.isGpu fracWorld.g 4 4 ins sch "ab".toList text) ∧
    (genOf false fracWorld.g 4 4).map (·.1) = some [0, 1] ∧
    callOf .python (pyNum rat) false fracWorld.g 4 4 [[.int 9, .int 9, .int 9, .int 9, .int 9, .int 9], [.int 1, .flt (5 / 2), .int 3, .flt (-1)], [.flt (7 / 2), .flt 2]] =
      some (.ok [.int 0, .int 0, .flt (2 / 7), .flt (5 / 7), .flt (3 / 2), .flt (-1 / 2)]) ∧
    callOf .python (pyNum rat) false fracWorld.g 4 4 [[.int 9, .int 9, .int 9, .int 9, .int 9, .int 9], [.int 1, .flt (5 / 2), .int 3, .flt (-1)], [.flt (7 / 2), .int 0]] =
      some (.error .arith) := by
  have hr : Reachable pyFrac fracWorld := Demo.reachOn (pythonBackend_faithful _) (by decide +kernel)
  refine ⟨pythonBackend_faithful _, hr, ⟨?_, ?_, ?_⟩, noScalarReshape_of (hr.inv (pythonBackend_faithful _)).winv.wf ?_ ?_, source_exists (by decide) ?_ (by decide), ?_, ?_, ?_⟩ <;> decide +kernel

/-- The numbers of C with fractions in both floating point formats. -/
def ratC : CFloats Rat Rat := ⟨rat, rat, id, id⟩

/-- C sessions over 64-bit integers, on the CPU and on the GPU. -/
noncomputable def cInts (isGpu : Bool) : Backend (CVal Rat Rat) :=
  demoBackend (scalarOf (if isGpu then .cuda else .clang) (cNum isGpu ratC) .int64 (.i64 77)) true isGpu (fun _ => .i64 77)

def ints23 : Nested (CVal Rat Rat) := .node [.node [.leaf (.i64 1), .leaf (.i64 2), .leaf (.i64 3)], .node [.leaf (.i64 4), .leaf (.i64 5), .leaf (.i64 6)]]

/-- A product of the transpose with itself. -/
def intsProg : List (Call (CVal Rat Rat)) := [.array ints23, .transpose 0 [1, 0], .bin .mul 1 1]

/-- The hypotheses of `C48_c` are met; in C an overflowing product has no result. -/
example : Faithful (cInts false) ∧ Reachable (cInts false) (Demo.afterOn (cInts false) intsProg) ∧ Computed (Demo.afterOn (cInts false) intsProg).g 2 ∧
    NoScalarReshape (Demo.afterOn (cInts false) intsProg).g 2 ∧ (∃ ins sch text, Source .clang (cInts false).isGpu (Demo.afterOn (cInts false) intsProg).g 2 2 ins sch "ab".toList text) ∧
    (Demo.afterOn (cInts false) intsProg).g.dtype 2 = .int64 ∧ (∀ i : Int, -9223372036854775808 ≤ i ∧ i < 9223372036854775808 → Elem .clang (cNum false ratC) .int64 (.i64 i)) ∧
    callOf .clang (cNum false ratC) false (Demo.afterOn (cInts false) intsProg).g 2 2 [List.replicate 6 (.i64 0), [.i64 1, .i64 2, .i64 3, .i64 4, .i64 5, .i64 6], [.i64 1, .i64 4, .i64 2, .i64 5, .i64 3, .i64 6]] =
      some (.ok [.i64 1, .i64 16, .i64 4, .i64 25, .i64 9, .i64 36]) ∧
    callOf .clang (cNum false ratC) false (Demo.afterOn (cInts false) intsProg).g 2 2 [List.replicate 6 (.i64 0), [.i64 1, .i64 2, .i64 3, .i64 4000000000, .i64 5, .i64 6], [.i64 1, .i64 4000000000, .i64 2, .i64 5, .i64 3, .i64 6]] =
      some (.error .arith) := by
  have hf : Faithful (cInts false) := demoBackend_faithful _ _ _ _
  have hr : Reachable (cInts false) (Demo.afterOn (cInts false) intsProg) := Demo.reachOn hf (by decide +kernel)
  exact ⟨hf, hr, ⟨by decide +kernel, by decide +kernel, by decide +kernel⟩,
    noScalarReshape_of (hr.inv hf).winv.wf (by decide +kernel) (by decide +kernel), source_exists (by decide) (by decide +kernel) (by decide), by decide +kernel,
    fun i hi => if_pos hi, by decide +kernel, by decide +kernel⟩

/-- The hypotheses of `C48_gpu` are met: 256 threads, each of which stores at most one element. -/
example : Faithful (cInts true) ∧ Reachable (cInts true) (Demo.afterOn (cInts true) intsProg) ∧ Computed (Demo.afterOn (cInts true) intsProg).g 2 ∧
    NoScalarReshape (Demo.afterOn (cInts true) intsProg).g 2 ∧ (∃ ins sch text, Source .cuda (cInts true).isGpu (Demo.afterOn (cInts true) intsProg).g 2 2 ins sch "ab".toList text) ∧
    IntLaws .cuda (cNum true ratC) ∧ Agrees .cuda (cNum true ratC) ((Demo.afterOn (cInts true) intsProg).g.dtype 2) (cInts true).A := by
  have hf : Faithful (cInts true) := demoBackend_faithful _ _ _ _
  have hr : Reachable (cInts true) (Demo.afterOn (cInts true) intsProg) := Demo.reachOn hf (by decide +kernel)
  exact ⟨hf, hr, ⟨by decide +kernel, by decide +kernel, by decide +kernel⟩,
    noScalarReshape_of (hr.inv hf).winv.wf (by decide +kernel) (by decide +kernel), source_exists (by decide) (by decide +kernel) (by decide), c_int (by decide) _ _,
    (by decide +kernel : (Demo.afterOn (cInts true) intsProg).g.dtype 2 = .int64) ▸ scalarOf_agrees _ (c_conv (by decide) _ _ _)⟩

end Whale.Props
