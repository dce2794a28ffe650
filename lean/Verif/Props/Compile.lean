import Verif.Proofs.MustKernel
import Verif.Proofs.Launch
import Verif.Proofs.Demo
/-
C20 fusion is invisible, C21 kernels run in dependency order, C38 no operation is computed twice, C46 compilation terminates.
-/
namespace Whale.Props
open Whale Hist Mat Algo
variable {V : Type}

/-- Demonstration program: a broadcast sum feeding two consumers and an elementwise chain; array 6 is the root. -/
def chain : List (Call Int) :=
  [.array Demo.m23, .bin .add 0 0, .sum 1 (.int 0) false, .un .neg 2, .bin .mul 1 3]

/-! ### C20 -/

/-- C20: whatever the fusion pass decides (`rc` is any positive numbering: where it is 1 a reduction-free array is merged into its consumers, where it is larger the
array gets its own kernel), materializing succeeds and every array stored in the computed buffer is read back the same as after the code's own
`materialize`. -/
theorem C20_fusion_invisible {b : Backend V} (hb : Faithful b) {w : World V} (hr : Reachable b w) {a : Nat} (ha : Computed w.g a) (hargs : ArgsOK b w (.materialize a))
    {rc : RC} (hrc : ∀ i, Reach w.g a i → rc i ≠ 0) (hnc : NoCollision (w.log ++ launchLogBy rc b.isGpu w.g a))
    (hfit : b.isGpu = true → FitsGridBy rc w.g a) :
    ∃ w1 w2, materialize b w a = .ok w1 ∧ materializeBy rc b w a = .ok w2 ∧
      ∀ x < w.g.length, base w.g x = a → ∃ l w1' w2', tolist b w1 x = .ok (l, w1') ∧ tolist b w2 x = .ok (l, w2') := by
  obtain ⟨ha, hv, hc⟩ := ha
  have hi := (hr.inv hb).winv
  obtain ⟨hns, hnc1, hne⟩ := hargs
  rw [base_nonview hv] at hns hne
  obtain ⟨w2, e2, i2, g2, a2⟩ := materializeBy_ok hb hi ha hv hc hns hrc hnc (fun hg => ⟨(hne hg).1, hfit hg⟩)
  obtain ⟨w1, e1, r1⟩ := materialize_ok hb hi ha (by rw [base_nonview hv]; exact hns) hnc1 (fun hgpu => by
    rw [base_nonview hv]
    intro funcs t hconv f hf F hF i hi'
    obtain ⟨funcs', t', e', _, _, _, _, hreach⟩ := convert_good hi.wf ha hns hv hc
    rw [hconv] at e'; cases e'
    refine ⟨?_, fun he => by rw [he]; exact (hne hgpu).2 funcs t hconv f hf⟩
    rcases hi' with rfl | hi'
    · exact (hne hgpu).1 _ (hreach _ hf)
    · exact (hne hgpu).1 _ ((hreach f hf).trans (convert_refs hi.wf ha hns hconv f F hF i (mem_refs.2 hi'))))
  refine ⟨w1, w2, e1, e2, fun x hx hbx => ?_⟩
  have av1 : Avail b w1 (base w1.g x) := by rw [r1.g, hbx]; have := r1.avail; rwa [base_nonview hv] at this
  have av2 : Avail b w2 (base w2.g x) := by rw [g2, hbx]; exact a2
  obtain ⟨c1, v1, f1, j1, d1, _⟩ := ensureCpu_ok r1.inv (x := base w1.g x) (by rw [r1.g, hbx]; exact ha) av1
  obtain ⟨c2, v2, f2, j2, d2, _⟩ := ensureCpu_ok i2 (x := base w2.g x) (by rw [g2, hbx]; exact ha) av2
  obtain ⟨l, _, _, t1, _⟩ := tolist_ok r1.inv (by rw [r1.g]; exact hx) av1
  refine ⟨l, _, _, t1, (?_ : tolist b w2 x = .ok (l, { w2 with cpu := c2, ev := v2 }))⟩
  unfold tolist at t1 ⊢
  simp only [f1, f2, bind, Except.bind, d1, d2] at t1 ⊢
  rw [r1.g] at t1
  rw [g2]
  cases hl : ND.toNdlist (den b.A w.g (base w.g x)).flatten (w.g.shape x) (w.g.strides x) (w.g.offset x) with
  | error y => rw [hl] at t1; cases t1
  | ok l' => rw [hl] at t1; cases t1; rfl

/-- The code's own decision is one of these. -/
theorem C20_code_decides {g : Graph V} {a : Nat} {r : List Nat × Tbl} (h : convert g a = .ok r) : ∃ rc, convertBy rc g a = .ok r := convert_by h

/-- The hypotheses are met with decisions that really differ: merging everything possible gives two kernels, merging nothing four. -/
example : Computed (Demo.after chain).g 5 ∧ ArgsOK Demo.py (Demo.after chain) (.materialize 5) ∧ NoCollision ((Demo.after chain).log ++ launchLogBy (fun _ => 2) false (Demo.after chain).g 5) ∧
    (match convertBy (fun _ => 1) (Demo.after chain).g 5 with | .ok r => r.1 | .error _ => []) = [2, 5] ∧
    (match convertBy (fun _ => 2) (Demo.after chain).g 5 with | .ok r => r.1 | .error _ => []) = [1, 2, 3, 4, 5] := by
  refine ⟨⟨by decide +kernel, by decide +kernel, by decide +kernel⟩, ?_, by decide +kernel, by decide +kernel, by decide +kernel⟩
  exact argsOKb_sound (by decide +kernel) ((Demo.reach (cs := chain) (by decide +kernel)).inv Demo.py_faithful).winv.wf (by decide +kernel)

/-! ### C21 -/

/-- C21: the kernels of one `materialize` call, in the order in which they run.  No array is computed twice, the requested array comes last, every kernel writes the
buffer of its own array, reads constants, and otherwise only reads results of kernels that ran before it in this call. -/
theorem C21_order {b : Backend V} (hb : Faithful b) {w : World V} (hr : Reachable b w) {a : Nat} (ha : Computed w.g a) (hns : NoScalarReshape w.g a) :
    ∃ funcs t, convert w.g a = .ok (funcs, t) ∧ funcs.Nodup ∧ funcs.getLast? = some a ∧
      ∀ pre f post, funcs = pre ++ f :: post → ∃ F, t f = some F ∧ F.outBuffer = f ∧ (∀ c ∈ (args F.expr).1, w.g.ctx c = .const) ∧
        ∀ d ∈ (args F.expr).2, d ∈ pre ∧ ∃ D, t d = some D ∧ D.outBuffer = d := by
  obtain ⟨ha, hv, hc⟩ := ha
  have hi := (hr.inv hb).winv
  obtain ⟨funcs, t, e, hnd, ⟨p, hp⟩, hord, htg, _⟩ := convert_good hi.wf ha hns hv hc
  refine ⟨funcs, t, e, hnd, by rw [hp]; simp, fun pre f post hs => ?_⟩
  have hf : f ∈ funcs := by rw [hs]; simp
  obtain ⟨_, _, F, hF, hE, hrefs⟩ := htg.entry f hf
  refine ⟨F, hF, hE.buffer, fun c hc => (RootWF.bufs hE.wf c (mem_dedup.1 hc)).2.2, fun d hd => ?_⟩
  have hd' := mem_dedup.1 hd
  obtain ⟨_, _, D, hD, hED, _⟩ := htg.entry d (hrefs d hd').1
  exact ⟨hord pre f post hs F hF d hd', D, hD, hED.buffer⟩

/-- C21, on the device: the launches a `materialize` call adds to the device trace are exactly those kernels, each once, in that order, with the buffers of exactly
the arrays they read. -/
theorem C21_launches {b : Backend V} (hb : Faithful b) (hg : b.isGpu = true) {w : World V} (hr : Reachable b w) {a : Nat} (ha : Computed w.g a) (hns : NoScalarReshape w.g a)
    {w' : World V} (hm : materialize b w a = .ok w') :
    ∃ funcs t, convert w.g a = .ok (funcs, t) ∧
      launches w'.ev = launches w.ev ++ funcs.map fun f => (f, match t f with | some F => (args F.expr).1 ++ (args F.expr).2 | none => []) := by
  obtain ⟨ha, hv, hc⟩ := ha
  have hi := (hr.inv hb).winv
  obtain ⟨funcs, t, e, hnd, ⟨p, hp⟩, hord, htg, _⟩ := convert_good hi.wf ha hns hv hc
  refine ⟨funcs, t, e, ?_⟩
  have hcop : (w.g.ctx a).op.isConst = false := nonconst_op hi.wf ha hc
  unfold materialize materializeF at hm
  simp only [hcop, hv, e, bind, Except.bind, Bool.false_eq_true, if_false] at hm
  obtain ⟨scheds, es, hl, hps⟩ := schedAll_ok (isGpu := b.isGpu) htg funcs (fun _ h => h)
  simp only [es] at hm
  have hmap : (funcs.zip scheds).map (·.1) = funcs := by apply List.map_fst_zip; omega
  have := runFuncs_launches hg hm (fun q hq => by
    have hqf : q.1 ∈ funcs := by rw [← hmap]; exact List.mem_map_of_mem hq
    obtain ⟨_, _, F, hF, hE, hrefs⟩ := htg.entry q.1 hqf
    refine ⟨F, hF, hE.buffer, fun d hd => ?_⟩
    obtain ⟨_, _, D, hD, hED, _⟩ := htg.entry d (hrefs d (mem_dedup.1 hd)).1
    exact ⟨D, hD, hED.buffer⟩)
  rw [this]
  simp only
  congr 1
  conv => rhs; rw [← hmap]
  rw [List.map_map]; rfl

/-- Two intermediate kernels before the last one, the second reading the first. -/
example : (match convert (Demo.after chain).g 5 with | .ok r => (r.1, r.1.map fun f => ((r.2 f).map fun F => args F.expr).getD ([], [])) | .error _ => ([], [])) =
    ([1, 2, 5], [([0], []), ([], [1]), ([], [1, 2])]) := by decide +kernel

/-! ### C38 -/

/-- C38: in one `materialize` call no array gets more than one kernel, constants get none, there are no more kernels than arrays, and no operation is computed by two
kernels: all kernels together contain at most as many operations as the arrays `a` was built from, every array counted once (`opsOf` is 1 for an elementwise operation,
sum, pad or dilate and 0 for constants, views and copies). -/
theorem C38_no_recompute {b : Backend V} (hb : Faithful b) {w : World V} (hr : Reachable b w) {a : Nat} (ha : Computed w.g a) (hns : NoScalarReshape w.g a) :
    ∃ funcs t, convert w.g a = .ok (funcs, t) ∧ funcs.Nodup ∧ (∀ f ∈ funcs, w.g.ctx f ≠ .const) ∧
      ∃ arrays : List Nat, arrays.Nodup ∧ (∀ i ∈ arrays, Reach w.g a i) ∧ (∀ f ∈ funcs, f ∈ arrays) ∧ funcs.length ≤ arrays.length ∧
        (funcs.map fun f => match t f with | some F => F.expr.ops | none => 0).sum ≤ (arrays.map (opsOf w.g)).sum := by
  obtain ⟨ha, hv, hc⟩ := ha
  have hi := (hr.inv hb).winv
  obtain ⟨funcs, t, e, hnd, _, _, htg, _⟩ := convert_good hi.wf ha hns hv hc
  obtain ⟨R, h1, h2, h3, h4⟩ := convert_linear hi.wf ha hns hv hc e
  refine ⟨funcs, t, e, hnd, fun f hf => (htg.entry f hf).2.1, R, h1, h2, h3, ?_, h4⟩
  have := sum_le_of_subset (f := fun _ => 1) hnd h3
  simpa using this

/-- C38: besides the requested array, only sums and arrays that are used at least twice (counting every use by every array that `a` was built from) get a kernel of their own. -/
theorem C38_which_kernels {b : Backend V} (hb : Faithful b) {w : World V} (hr : Reachable b w) {a : Nat} (ha : Computed w.g a) (hns : NoScalarReshape w.g a)
    {funcs : List Nat} {t : Tbl} (h : convert w.g a = .ok (funcs, t)) {f : Nat} (hf : f ∈ funcs) (hfa : f ≠ a) :
    Summed w.g f ∨ ∃ arrays : List Nat, arrays.Nodup ∧ (∀ i ∈ arrays, Reach w.g a i) ∧ 2 ≤ (arrays.flatMap fun i => (w.g.ctx i).inputs).count f := by
  obtain ⟨ha, hv, hc⟩ := ha
  exact (convert_uses (hr.inv hb).winv.wf ha hns hv hc h).1 f hf hfa

/-- C38, exactly: an array other than the requested one that performs an operation (elementwise, sum, pad or dilate) gets a kernel of its own if and only if the requested array was built
from it and it is a sum or used at least twice.  (For views and copies "only if" holds by `C38_which_kernels`, "if" does not: see the example below.) -/
theorem C38_exact {b : Backend V} (hb : Faithful b) {w : World V} (hr : Reachable b w) {a : Nat} (ha : Computed w.g a) (hns : NoScalarReshape w.g a)
    {funcs : List Nat} {t : Tbl} (h : convert w.g a = .ok (funcs, t)) {f : Nat} (hfa : f ≠ a) (hop : opsOf w.g f = 1) :
    f ∈ funcs ↔ Reach w.g a f ∧ (Summed w.g f ∨
      ∃ arrays : List Nat, arrays.Nodup ∧ (∀ i ∈ arrays, Reach w.g a i) ∧ 2 ≤ (arrays.flatMap fun i => (w.g.ctx i).inputs).count f) := by
  have hi := (hr.inv hb).winv
  constructor
  · intro hf
    refine ⟨?_, C38_which_kernels hb hr ha hns h hf hfa⟩
    obtain ⟨fs', t', ec, _, _, _, hent⟩ := convert_ok hi.wf ha.1 hns ha.2.1
    rw [h] at ec; cases ec
    exact (hent f hf).1
  · rintro ⟨hreach, hw⟩
    exact convert_must hi.wf ha.1 hns ha.2.1 h hreach (hw.imp id fun hw => ⟨by omega, hw⟩)

/-- Array 1 is used twice, array 2 is a sum: both get kernels, array 3 (used once) does not. -/
example : Demo.runs chain = true ∧ (match convert (Demo.after chain).g 5 with | .ok r => r.1 | .error _ => []) = [1, 2, 5] ∧
    (List.range 6).map (opsOf (Demo.after chain).g) = [0, 1, 1, 1, 0, 1] ∧
    ([5, 4, 3, 2, 1].flatMap fun i => ((Demo.after chain).g.ctx i).inputs).count 1 = 2 := by decide +kernel

/-- `v = x.T` is used twice by `k = v + v`: whether `v` gets a kernel depends on whether `k` is used once (`-k`, array 3) or twice (`k * k`, array 3 of the second program). -/
example : (match convert (Demo.after [.array Demo.m23, .T 0, .bin .add 1 1, .un .neg 2]).g 3 with | .ok r => r.1 | .error _ => []) = [1, 3] ∧
    (match convert (Demo.after [.array Demo.m23, .T 0, .bin .add 1 1, .bin .mul 2 2]).g 3 with | .ok r => r.1 | .error _ => []) = [2, 3] := by decide +kernel

example : Computed (Demo.after chain).g 5 ∧ NoScalarReshape (Demo.after chain).g 5 ∧
    ((List.range 6).map (opsOf (Demo.after chain).g)).sum = 4 := by
  refine ⟨⟨by decide +kernel, by decide +kernel, by decide +kernel⟩, ?_, by decide +kernel⟩
  have := argsOKb_sound (b := Demo.py) (w := Demo.after chain) (c := .materialize 5) (by decide +kernel)
    ((Demo.reach (cs := chain) (by decide +kernel)).inv Demo.py_faithful).winv.wf (by decide +kernel)
  have h := this.1
  have hb : base (Demo.after chain).g 5 = 5 := by decide +kernel
  rwa [hb] at h

/-! ### C46 -/

/-- C46: converting an array with recursion depth bounded by its position plus two never runs out of depth; it fails only if something was reshaped to `()`, with a
TypeError. -/
theorem C46_convert_total {b : Backend V} (hb : Faithful b) {w : World V} (hr : Reachable b w) {a : Nat} (ha : Computed w.g a) :
    (NoScalarReshape w.g a → ∃ r, convert w.g a = .ok r) ∧ (¬ NoScalarReshape w.g a → convert w.g a = .error .typeError) := by
  obtain ⟨ha, hv, hc⟩ := ha
  have hi := (hr.inv hb).winv
  refine ⟨fun hns => ?_, fun hns => ?_⟩
  · obtain ⟨funcs, t, e, _⟩ := convert_good hi.wf ha hns hv hc
    exact ⟨_, e⟩
  · have e := arrToFunc_error hi.wf (a + 2) a Tbl.empty (by omega) ha hns (Fresh.empty w.g)
    unfold convert
    simp only [e, bind, Except.bind]

/-- Both cases occur. -/
example : Computed (Demo.after [.array (.node [.leaf 7]), .reshape 0 [], .un .neg 1]).g 2 ∧
    (match convert (Demo.after [.array (.node [.leaf 7]), .reshape 0 [], .un .neg 1]).g 2 with | .ok _ => none | .error e => some e) = some .typeError ∧
    (match convert (Demo.after chain).g 5 with | .ok _ => true | .error _ => false) = true :=
  ⟨⟨by decide +kernel, by decide +kernel, by decide +kernel⟩, by decide +kernel, by decide +kernel⟩

end Whale.Props
