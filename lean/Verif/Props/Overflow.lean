import Verif.Proofs.Bounded
import Verif.Props.Semantics
/-
C49: in C and CUDA the index computations of generated code do not overflow.
-/
namespace Whale.Props
open Whale Mat Hist Kern Codegen Algo Syntax Sem
variable {V : Type}

/-- C49 on a CPU, in the statement tree: if no array involved has more than `M` elements (and no slice step, pad width or dilation is greater), then the results of all index operations of a
kernel are between `-M` and `M`: the arithmetic that faults at any other result runs the kernel to its end, with the same stores as the unbounded one. -/
theorem C49_index_cpu {M : Int} {b : Backend V} (hb : Faithful b) (hcpu : b.isGpu = false) {w : World V} (hr : Reachable b w) {a : Nat} (ha : Computed w.g a) (hns : NoScalarReshape w.g a)
    (hS : SmallFrom w.g M a) {f : Nat} {ins : List Nat} {sch : Schedule} {K : Kernel} (hG : Generates b.isGpu w.g a f ins sch K)
    {out : List V} (hout : (out.length : Int) = prod (w.g.shape f)) {m : Machine V} (hmm : m = machine b K out (ins.map fun i => (value b w i).flatten)) :
    ∃ s, s.ret = false ∧ ∀ ar, ar = .bounded M ∨ ar.lim = none → exec (m.withArith ar) K.body (fun _ => none) = some s := by
  subst hmm
  have hi := (hr.inv hb).winv
  let _ : Lim := ⟨some M⟩
  obtain ⟨t, F, n, n', hf, hE, hR, rfl, hs, hK, _, hfi, hff⟩ := hG.fits hi.wf hi.nn ha hns (fun m hm => by cases hm; exact hS)
  have hL : LimOK (.bounded M) := fun m hm => by cases hm; rfl
  have hm := memOK_mem (b := b) (o := out) (m := (machine b K out (((argsOf F).bufs ++ (argsOf F).fncs).map fun i => (value b w i).flatten)).withArith (.bounded M)) hi.wf hE hK hL rfl hfi
  obtain ⟨sch', K', n'', e1, e2, _, h3⟩ := kernel_cpu hi.wf hE hR hm (by simpa [machine] using hout) n hff
  rw [hcpu] at hs
  rw [hs] at e1; cases e1
  rw [hK] at e2; cases e2
  obtain ⟨σ', e, _⟩ := h3.seq
  refine ⟨⟨σ', storesOf b.A w.g f, false⟩, rfl, fun ar har => ?_⟩
  rcases har with rfl | har
  · exact e
  · exact exec_weaker (.bounded har) e

/-- C49 on a GPU, in the statement tree: the same for every thread; there have to be 255 elements less, because the number of threads is rounded up to a multiple of 256. -/
theorem C49_index_gpu {M : Int} {b : Backend V} (hb : Faithful b) (hgpu : b.isGpu = true) {w : World V} (hr : Reachable b w) {a : Nat} (ha : Computed w.g a) (hns : NoScalarReshape w.g a)
    (hS : SmallFrom w.g (M - 255) a) {f : Nat} {ins : List Nat} {sch : Schedule} {K : Kernel} (hG : Generates b.isGpu w.g a f ins sch K)
    {out : List V} (hout : (out.length : Int) = prod (w.g.shape f)) {m : Machine V} (hmm : m = machine b K out (ins.map fun i => (value b w i).flatten)) :
    ∀ t ∈ threads sch, ∃ s, ∀ ar, ar = .bounded M ∨ ar.lim = none → exec (onThread (m.withArith ar) t) K.body (fun _ => none) = some s := by
  subst hmm
  have hi := (hr.inv hb).winv
  let _ : Lim := ⟨some M⟩
  obtain ⟨t, F, n, n', hf, hE, hR, rfl, hs, hK, _, hfi, hff⟩ := hG.fits hi.wf hi.nn ha hns (fun m hm => by cases hm; exact hS.mono (by omega))
  have hL : LimOK (.bounded M) := fun m hm => by cases hm; rfl
  rw [hgpu] at hs
  have hnp := kernel_noPar hE hs hK
  have hnn := hi.nn f hf
  have hreach : Reach w.g a f := by obtain ⟨_, _, _, _, h, _⟩ := hG.ready hi.wf ha hns (fun m hm => by cases hm; exact hS.mono (by omega)); exact h
  let m := machine b K out (((argsOf F).bufs ++ (argsOf F).fncs).map fun i => (value b w i).flatten)
  have hm := memOK_mem (b := b) (o := out) (m := m.withArith (.bounded M)) hi.wf hE hK hL rfl hfi
  obtain ⟨sch', K', n'', e1, e2, _, h3, _⟩ := kernel_gpu (m := m.withArith (.bounded M)) hi.wf hE hR hm (by simpa [m, machine] using hout) hnn n
    (by intro k hk; cases hk; have := (hS f hreach).1; have := room_ge_one (w.g.shape f); omega)
  rw [hs] at e1; cases e1
  rw [hK] at e2; cases e2
  have hall : ∀ t ∈ threads sch, (exec (onThread (m.withArith (.bounded M)) t) K.body (fun _ => none)).isSome := by
    by_contra hn
    obtain ⟨ws, e, _⟩ := h3 none ⟨fun t => exec (onThread (m.withArith (.bounded M)) t) K.body (fun _ => none), fun t _ => (par_det hnp _ _).2 rfl, Or.inr ⟨hn, rfl⟩⟩
    cases e
  intro th hth
  obtain ⟨s, hs⟩ := Option.isSome_iff_exists.1 (hall th hth)
  refine ⟨s, fun ar har => ?_⟩
  rcases har with rfl | har
  · exact hs
  · exact exec_weaker (m := onThread m th) (.bounded har) hs

/-- All literals of a kernel are within the limit as well. -/
theorem lits_small {M : Int} {b : Backend V} (hb : Faithful b) {w : World V} (hr : Reachable b w) {a : Nat} (ha : Computed w.g a) (hns : NoScalarReshape w.g a)
    (hS : SmallFrom w.g (M - if b.isGpu then 255 else 0) a) {f : Nat} {ins : List Nat} {sch : Schedule} {K : Kernel} (hG : Generates b.isGpu w.g a f ins sch K) :
    Stmt.lits (fun i => -M ≤ i ∧ i ≤ M) K.body ∧ (b.isGpu = true → ∀ t ∈ threads sch, ∀ (th : Bool) d, -M ≤ (if th then t.thread d else t.block d) ∧ (if th then t.thread d else t.block d) ≤ M) := by
  have hi := (hr.inv hb).winv
  let _ : Lim := ⟨some M⟩
  have hS' : Small w.g a := fun m hm => by cases hm; exact hS.mono (by split <;> omega)
  have hfitM : ∀ v, Fit v ↔ -M ≤ v ∧ v ≤ M := fun v => ⟨fun h => h M rfl, fun h m hm => by cases hm; exact h⟩
  obtain ⟨t, F, n, n', hf, hE, hR, rfl, hs, hK, hfe, hfi, hff⟩ := hG.fits hi.wf hi.nn ha hns hS'
  have hreach : Reach w.g a f := by obtain ⟨_, _, _, _, h, _⟩ := hG.ready hi.wf ha hns hS'; exact h
  obtain ⟨h1, h2, h3⟩ := schedule_fit hE (hi.nn f hf) hs (by rw [hfitM]; have := (hS f hreach).1; have := room_ge_one (w.g.shape f); split at * <;> omega)
  have := codegen_lits (g := w.g) hff.zero hfe (fun d hd F' hF' => by obtain ⟨D, hD, e⟩ := hR d hd; rw [hF'] at hD; cases hD; exact e)
    (by rw [hE.shape]; exact Fit.strides (hi.nn f hf) hff) h1 h2 hK
  simp only [funext fun v => propext (hfitM v)] at this
  exact ⟨this, fun hg t ht th d => (hfitM _).1 (h3 hg t ht th d)⟩

/-- C49 in C: if no array involved has more than 2³¹-1 elements (and no slice step, pad width or dilation is greater), calling the function of the generated source computes the
array unless an element operation has no result; in particular no index computation overflows. -/
theorem C49_c {S D : Type} (O : CFloats S D) (junk : CVal S D) {b : Backend (CVal S D)} (hb : Faithful b) (hcpu : b.isGpu = false) {dt : DType}
    (hA : b.A = scalarOf .clang (cNum false O) dt junk) {w : World (CVal S D)} (hr : Reachable b w) {a : Nat} (ha : Computed w.g a) (hns : NoScalarReshape w.g a)
    (hS : SmallFrom w.g 2147483647 a) {f : Nat} {ins : List Nat} {sch : Schedule} {digest text : Str} (hd : ∀ c ∈ digest, c ∈ "0123456789abcdef".toList)
    (hT : Source .clang b.isGpu w.g a f ins sch digest text) (hdt : w.g.dtype f = dt) (hel : ∀ i ∈ ins, ∀ v ∈ (value b w i).flatten, Elem .clang (cNum false O) dt v)
    (hE : ElementsTotal .clang (cNum false O) dt (Uses w.g a)) :
    ∃ p, parse .clang text = some p ∧ ∀ out : List (CVal S D), (out.length : Int) = prod (w.g.shape f) →
      call .clang (cNum false O) (fun _ _ => none) p (out :: ins.map fun i => (value b w i).flatten) = .ok (value b w f).flatten := by
  subst hdt
  obtain ⟨K, hG, hC⟩ := hT
  refine ⟨_, C37_parse (by rw [hcpu]; simp) hd hC, fun out hout => ?_⟩
  obtain ⟨s, hex, hval⟩ := cpu_stores hb hcpu hr ha hns hG hout
  obtain ⟨s', _, hs'⟩ := C49_index_cpu hb hcpu hr ha hns hS hG hout rfl
  have : s' = s := by
    have h1 := hs' .c (.inr rfl)
    rw [hex .c rfl] at h1
    exact (Option.some.inj h1).symm
  subst this
  have := call_kernel (L := .clang) hb hr ha hns hG (c_int (by decide) false O) (by rw [hA]; exact scalarOf_agrees junk (c_conv (by decide) false O _)) hel (fun _ _ => none) (fun _ _ => none)
    (fun _ _ _ h => by cases h) (B := fun i => -2147483647 ≤ i ∧ i ≤ 2147483647) (ar := .bounded 2147483647)
    (fun _ _ _ _ h => ⟨iarith_strict (iarith_bounded h).1 rfl, (iarith_bounded h).2⟩) (fun _ _ _ h => by cases h) (fun _ _ _ _ _ => by omega) (by omega)
    (lits_small hb hr ha hns (by rw [hcpu]; simpa using hS) hG).1 (hs' _ (.inl rfl)) (Text.kernName digest)
  rw [hval] at this
  rcases this with ⟨_, h2⟩ | ⟨l, h1, rfl⟩
  · exact absurd (c_total (by decide) false O (fun _ h => h) hE) h2
  · exact h1

/-- C49 in CUDA: the same, for arrays of up to 2³¹-256 elements. -/
theorem C49_cuda {S D : Type} (O : CFloats S D) (junk : CVal S D) {b : Backend (CVal S D)} (hb : Faithful b) (hgpu : b.isGpu = true) {dt : DType}
    (hA : b.A = scalarOf .cuda (cNum true O) dt junk) {w : World (CVal S D)} (hr : Reachable b w) {a : Nat} (ha : Computed w.g a) (hns : NoScalarReshape w.g a)
    (hS : SmallFrom w.g 2147483392 a) {f : Nat} {ins : List Nat} {sch : Schedule} {digest text : Str} (hd : ∀ c ∈ digest, c ∈ "0123456789abcdef".toList)
    (hT : Source .cuda b.isGpu w.g a f ins sch digest text) (hdt : w.g.dtype f = dt) (hel : ∀ i ∈ ins, ∀ v ∈ (value b w i).flatten, Elem .cuda (cNum true O) dt v)
    (hE : ElementsTotal .cuda (cNum true O) dt (Uses w.g a)) :
    ∃ p, parse .cuda text = some p ∧ ∀ out : List (CVal S D), (out.length : Int) = prod (w.g.shape f) → ∀ order : List Thread, order.Perm (threads sch) →
      order.foldlM (fun buf t => call .cuda (cNum true O) (threadVars t) p (buf :: ins.map fun i => (value b w i).flatten)) out = .ok (value b w f).flatten := by
  subst hdt
  obtain ⟨K, hG, hC⟩ := hT
  refine ⟨_, C37_parse (by rw [hgpu]; simp) hd hC, fun out hout order hord => ?_⟩
  obtain ⟨s, hex, hval⟩ := gpu_stores hb hgpu hr ha hns hG hout
  have hs' := C49_index_gpu (M := 2147483647) hb hgpu hr ha hns hS hG hout rfl
  have hbd : ∀ t ∈ threads sch, exec (onThread ((machine b K out (ins.map fun i => (value b w i).flatten)).withArith (.bounded 2147483647)) t) K.body (fun _ => none) = some (s t) := by
    intro t ht
    obtain ⟨s', hs'⟩ := hs' t ht
    have h1 := hs' .c (.inr rfl)
    rw [hex t ht .c rfl] at h1
    rw [hs' _ (.inl rfl), ← h1]
  have hl := lits_small (M := 2147483647) hb hr ha hns (by rw [hgpu]; exact hS) hG
  have := call_threads hb hr ha hns hG (c_int (by decide) true O) (by rw [hA]; exact scalarOf_agrees junk (c_conv (by decide) true O _)) hel
    (B := fun i => -2147483647 ≤ i ∧ i ≤ 2147483647) (ar := .bounded 2147483647)
    (fun _ _ _ _ h => ⟨iarith_strict (iarith_bounded h).1 rfl, (iarith_bounded h).2⟩) (fun _ _ _ _ _ => by omega) (by omega) hl.1 (hl.2 hgpu) hbd (Text.kernName digest) order out
    (fun t ht => hord.mem_iff.1 ht) rfl
  rw [hval order hord] at this
  rcases this with ⟨_, h2⟩ | ⟨l, h1, rfl⟩
  · exact absurd (c_total (by decide) true O (fun _ h => h) hE) h2
  · exact h1

/-- C49 for floating point arrays in C: if floating point operations always have a result, as in IEEE 754, running the generated source always computes the array. -/
theorem C49_float_c {S D : Type} {O : CFloats S D} (hs : Complete O.single) (hdd : Complete O.double) (junk : CVal S D) {b : Backend (CVal S D)} (hb : Faithful b) (hcpu : b.isGpu = false)
    {dt : DType} (hfl : dt.isInt = false) (hA : b.A = scalarOf .clang (cNum false O) dt junk) {w : World (CVal S D)} (hr : Reachable b w) {a : Nat} (ha : Computed w.g a)
    (hns : NoScalarReshape w.g a) (hmod : ¬ Uses w.g a .Mod) (hS : SmallFrom w.g 2147483647 a) {f : Nat} {ins : List Nat} {sch : Schedule} {digest text : Str}
    (hd : ∀ c ∈ digest, c ∈ "0123456789abcdef".toList) (hT : Source .clang b.isGpu w.g a f ins sch digest text) (hdt : w.g.dtype f = dt)
    (hel : ∀ i ∈ ins, ∀ v ∈ (value b w i).flatten, Elem .clang (cNum false O) dt v) :
    ∃ p, parse .clang text = some p ∧ ∀ out : List (CVal S D), (out.length : Int) = prod (w.g.shape f) →
      call .clang (cNum false O) (fun _ _ => none) p (out :: ins.map fun i => (value b w i).flatten) = .ok (value b w f).flatten :=
  C49_c O junk hb hcpu hA hr ha hns hS hd hT hdt hel (c_float_total (by decide) false hs hdd hfl hmod)

/-- C49 for floating point arrays in CUDA. -/
theorem C49_float_cuda {S D : Type} {O : CFloats S D} (hs : Complete O.single) (hdd : Complete O.double) (junk : CVal S D) {b : Backend (CVal S D)} (hb : Faithful b) (hgpu : b.isGpu = true)
    {dt : DType} (hfl : dt.isInt = false) (hA : b.A = scalarOf .cuda (cNum true O) dt junk) {w : World (CVal S D)} (hr : Reachable b w) {a : Nat} (ha : Computed w.g a)
    (hns : NoScalarReshape w.g a) (hmod : ¬ Uses w.g a .Mod) (hS : SmallFrom w.g 2147483392 a) {f : Nat} {ins : List Nat} {sch : Schedule} {digest text : Str}
    (hd : ∀ c ∈ digest, c ∈ "0123456789abcdef".toList) (hT : Source .cuda b.isGpu w.g a f ins sch digest text) (hdt : w.g.dtype f = dt)
    (hel : ∀ i ∈ ins, ∀ v ∈ (value b w i).flatten, Elem .cuda (cNum true O) dt v) :
    ∃ p, parse .cuda text = some p ∧ ∀ out : List (CVal S D), (out.length : Int) = prod (w.g.shape f) → ∀ order : List Thread, order.Perm (threads sch) →
      order.foldlM (fun buf t => call .cuda (cNum true O) (threadVars t) p (buf :: ins.map fun i => (value b w i).flatten)) out = .ok (value b w f).flatten :=
  C49_cuda O junk hb hgpu hA hr ha hns hS hd hT hdt hel (c_float_total (by decide) true hs hdd hfl hmod)

/-! ### examples -/

/-- Fractions and one more number, "not a number", in place of floating point numbers. -/
def nanRat : Floats (Option Rat) where
  ofInt i := some (some i)
  dec a _ := some a
  neg x := x.map (- ·)
  bin op x y := some (x.bind fun x => y.bind fun y => rat.bin op x y)
  cmp op x y := match x, y with
    | some x, some y => rat.cmp op x y
    | _, _ => false
  fn _ _ := some none
  isZero x := decide (x = some 0)
  trunc x := x.bind rat.trunc

theorem nanRat_complete : Complete nanRat := ⟨fun _ => rfl, fun _ _ _ _ => rfl, fun _ _ _ => rfl, fun _ _ => rfl⟩

def nanC : CFloats (Option Rat) (Option Rat) := ⟨nanRat, nanRat, id, id⟩

/-- C sessions over floating point numbers, on the CPU and on the GPU. -/
noncomputable def cFloats (isGpu : Bool) : Backend (CVal (Option Rat) (Option Rat)) :=
  demoBackend (scalarOf (if isGpu then .cuda else .clang) (cNum isGpu nanC) .float64 (.f64 none)) true isGpu (fun _ => .f64 none)

def floats22 : Nested (CVal (Option Rat) (Option Rat)) := .node [.node [.leaf (.f64 (some 1)), .leaf (.f64 (some (5 / 2)))], .node [.leaf (.f64 (some 3)), .leaf (.f64 (some (-3)))]]

/-- Elements divided by the sum of their row, dilated, with a row of zeros above. -/
def floatProg : List (Call (CVal (Option Rat) (Option Rat))) := [.array floats22, .sum 0 (.int 1) true, .bin .truediv 0 1, .dilate 3 1 2, .pad 4 0 1 0]

noncomputable def floatWorld (isGpu : Bool) : World (CVal (Option Rat) (Option Rat)) := Demo.afterOn (cFloats isGpu) floatProg

/-- `SmallFrom`, to be checked. -/
def smallB (g : Graph V) (m : Int) (a : Nat) : Bool := (List.range (a + 1)).all fun i => decide (room (g.shape i) ≤ m) && match g.ctx i with
  | .slice _ subs => subs.all fun s => decide (s.step ≤ m)
  | .pad _ _ before after => decide (0 ≤ before ∧ before ≤ m) && decide (0 ≤ after ∧ after ≤ m)
  | .dilate _ _ k => decide (k ≤ m)
  | _ => true

theorem smallFrom_of {g : Graph V} (hw : WF g) {m : Int} {a : Nat} (ha : a < g.length) (h : smallB g m a = true) : SmallFrom g m a := by
  intro i hi
  have := List.all_eq_true.1 h i (List.mem_range.2 (Nat.lt_succ_of_le (hi.le hw ha)))
  rw [Bool.and_eq_true, decide_eq_true_iff] at this
  refine ⟨this.1, ?_⟩
  have h2 := this.2
  cases hc : g.ctx i <;> rw [hc] at h2 <;> first | trivial | simpa using h2

/-- `Uses`, to be checked. -/
def usesB (g : Graph V) (a : Nat) (op : Ops) : Bool := (List.range (a + 1)).any fun i => decide (op ∈ elementOps (g.ctx i))

theorem not_uses_of {g : Graph V} (hw : WF g) {a : Nat} (ha : a < g.length) {op : Ops} (h : usesB g a op = false) : ¬ Uses g a op := by
  rintro ⟨i, hi, ho⟩
  have := List.any_eq_false.1 h i (List.mem_range.2 (Nat.lt_succ_of_le (hi.le hw ha)))
  exact this (decide_eq_true ho)

/-- The hypotheses of `C49_float_c` and `C49_float_cuda` are met; in C running the generated text gives the quotients and, for the row that adds up to zero, "not a number". -/
example (isGpu : Bool) : Faithful (cFloats isGpu) ∧ Reachable (cFloats isGpu) (floatWorld isGpu) ∧ Computed (floatWorld isGpu).g 5 ∧ NoScalarReshape (floatWorld isGpu).g 5 ∧
    ¬ Uses (floatWorld isGpu).g 5 .Mod ∧ Uses (floatWorld isGpu).g 5 .Truediv ∧ SmallFrom (floatWorld isGpu).g 2147483392 5 ∧
    (∃ ins sch text, Source (if isGpu then .cuda else .clang) (cFloats isGpu).isGpu (floatWorld isGpu).g 5 5 ins sch "ab".toList text) ∧ (floatWorld isGpu).g.dtype 5 = .float64 ∧
    Complete nanC.single ∧ Complete nanC.double := by
  have hf : Faithful (cFloats isGpu) := demoBackend_faithful _ _ _ _
  have hr : Reachable (cFloats isGpu) (floatWorld isGpu) := Demo.reachOn hf (by cases isGpu <;> decide +kernel)
  have hw := (hr.inv hf).winv.wf
  have hl : 5 < (floatWorld isGpu).g.length := by cases isGpu <;> decide +kernel
  refine ⟨hf, hr, ⟨hl, ?_, ?_⟩, noScalarReshape_of hw hl ?_, not_uses_of hw hl ?_, ⟨3, ?_, ?_⟩, smallFrom_of hw hl ?_, source_exists ?_ ?_ (by decide), ?_, nanRat_complete, nanRat_complete⟩
  on_goal 5 => exact Reach.step (i := 4) (Reach.step (i := 5) .refl (by cases isGpu <;> decide +kernel)) (by cases isGpu <;> decide +kernel)
  all_goals cases isGpu <;> decide +kernel

end Whale.Props
