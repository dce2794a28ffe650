import Verif.Proofs.Nesting
import Verif.Proofs.DemoDev
import Verif.Props.Text
/-
C62: generated programs are not nested more deeply than the compilers of the target languages accept (CPython rejects functions with more than a fixed number of nested loops and files with
more than a fixed number of indentation levels; C compilers have limits, too).
-/
namespace Whale.Props
open Algo Hist Mat
open Syntax (parse Sx Sx.loops Sx.blocks)
variable {V : Type}

/-- C62, exactly: on the CPU the program of every kernel has as many nested loops as its array has dimensions and summed axes, and inside them at most one nested conditional for
every `pad` and `dilate` that follow one another. -/
theorem C62_nesting {L : Lang} (hL : L ≠ .cuda) {b : Backend V} (hb : Faithful b) {w : World V} (hr : Reachable b w) {a : Nat} (ha : Computed w.g a) (hns : NoScalarReshape w.g a)
    {f : Nat} {digest text : Str} (hd : ∀ c ∈ digest, c ∈ "0123456789abcdef".toList) {K : Kernel} (hC : Compiles L false w.g a f digest text K) :
    ∃ P, parse L text = some P ∧ P.body.loops = (w.g.shape f).length + summedAxes w.g f ∧
      P.body.loops ≤ P.body.blocks ∧ P.body.blocks ≤ P.body.loops + condDepth w.g f := by
  have hw := (hr.inv hb).winv.wf
  refine ⟨_, C37_parse (by simp [hL]) hd hC, ?_⟩
  obtain ⟨funcs, t, F, sch, n, n', hc, hf, hF, hs, ht, hk⟩ := hC
  obtain ⟨fs', t', ec, _, _, _, hent⟩ := convert_ok hw ha.1 hns ha.2.1
  rw [hc] at ec; cases ec
  obtain ⟨_, F', hF', hE, _⟩ := hent f hf
  rw [hF] at hF'; cases hF'
  obtain ⟨h1, h2⟩ := codegen_nest hE hs hk
  obtain ⟨h3, h4⟩ := convert_nest hw ha.1 hns hc f F hF
  have h5 := nest_mono (W := fun _ => 0) (W' := condDepth w.g) (fun _ => Nat.zero_le _) F.expr
  simp only [Kernel.program, (Stmt.sx_loops L K.body .done).1, (Stmt.sx_loops L K.body .done).2, Sx.loops, Sx.blocks, Nat.max_zero, h1, h2]
  rw [← h4]
  refine ⟨rfl, ?_, ?_⟩ <;> omega

/-- The array is computed by one kernel: every intermediate result is used once and there are no intermediate sums. -/
structure Single (g : Graph V) (a : Nat) : Prop where
  sum : ∀ i, Reach g a i → i ≠ a → ¬ Summed g i
  once : ∀ x, g.ctx x ≠ .const → ∀ i j, Reach g a i → Reach g a j → x ∈ (g.ctx i).inputs → x ∈ (g.ctx j).inputs → i = j
  single : ∀ x, g.ctx x ≠ .const → ∀ i, Reach g a i → (g.ctx i).inputs.count x ≤ 1

/-- C62, exactly, for arrays with a single kernel: each `pad` and each `dilate` on the longest chain adds a nested conditional. -/
theorem C62_conditionals {L : Lang} (hL : L ≠ .cuda) {b : Backend V} (hb : Faithful b) {w : World V} (hr : Reachable b w) {a : Nat} (ha : Computed w.g a) (hns : NoScalarReshape w.g a)
    (ho : Single w.g a) {digest : Str} (hd : ∀ c ∈ digest, c ∈ "0123456789abcdef".toList) :
    ∃ text K P, Compiles L false w.g a a digest text K ∧ parse L text = some P ∧ P.body.loops = (w.g.shape a).length + summedAxes w.g a ∧
      P.body.blocks = P.body.loops + condDepth w.g a := by
  have hi := (hr.inv hb).winv
  obtain ⟨funcs, t, hc, hnd, ⟨pre, hpre⟩, hord, htg, _⟩ := convert_good hi.wf ha.1 hns ha.2.1 ha.2.2
  have haf : a ∈ funcs := by rw [hpre]; simp
  obtain ⟨_, hfc, F, hF, hE, hrefs⟩ := htg.entry a haf
  have hR : RefsOK w.g t F := by
    intro d hd
    obtain ⟨_, _, D, hD, hED, _⟩ := htg.entry d (hrefs d hd).1
    exact ⟨D, hD, hED.shape⟩
  obtain ⟨sch, hs⟩ := schedule_ok (isGpu := false) hE
  obtain ⟨s, k, n', hg, _⟩ := genRoot_gen (dt := F.outDtype) hE.wf (argsOK_of hR) 0
  obtain ⟨K, n'', hk⟩ : ∃ K n', Codegen.codegen w.g t F sch ⟨(args F.expr).1, (args F.expr).2⟩ 0 = .ok (K, n') := by
    simp only [argsOf] at hg
    exact ⟨_, _, by simp only [Codegen.codegen, hg, bind, Except.bind, pure, Except.pure]; rfl⟩
  have hm := schedule_modes (L := L) (isGpu := false) (by simp [hL]) hs
  have hC : Compiles L false w.g a a digest _ K := ⟨funcs, t, F, sch, 0, n'', hc, haf, hF, hs, Text.codegen_tree L (Text.kernName digest) hm hk, hk⟩
  refine ⟨_, K, _, hC, C37_parse (by simp [hL]) hd hC, ?_⟩
  obtain ⟨_, F', hF', hnr⟩ := convert_single hi.wf ha.1 hns ha.2.1 ha.2.2 ho.sum ho.once ho.single hc
  rw [hF] at hF'; cases hF'
  obtain ⟨h1, h2⟩ := codegen_nest hE hs hk
  obtain ⟨h3, h4⟩ := convert_nest hi.wf ha.1 hns hc a F hF
  have h5 := nest_closed (W := fun _ => 0) (W' := condDepth w.g) hnr
  simp only [Kernel.program, (Stmt.sx_loops L K.body .done).1, (Stmt.sx_loops L K.body .done).2, Sx.loops, Sx.blocks, Nat.max_zero, h1, h2, h5, h3]
  rw [← h4]
  exact ⟨rfl, trivial⟩

/-- C62, where it holds: if a compiler accepts `D` nested loops and `B` nested blocks, the programs for arrays with at most `D` dimensions and summed axes and at most `B - D` pads and
dilations in a row are accepted. -/
theorem C62_partial {L : Lang} (hL : L ≠ .cuda) {b : Backend V} (hb : Faithful b) {w : World V} (hr : Reachable b w) {a : Nat} (ha : Computed w.g a) (hns : NoScalarReshape w.g a)
    {D B : Nat} (hD : ∀ i, Reach w.g a i → (w.g.shape i).length + summedAxes w.g i ≤ D) (hB : ∀ i, Reach w.g a i → D + condDepth w.g i ≤ B)
    {f : Nat} {digest text : Str} (hd : ∀ c ∈ digest, c ∈ "0123456789abcdef".toList) {K : Kernel} (hC : Compiles L false w.g a f digest text K) :
    ∃ P, parse L text = some P ∧ P.body.loops ≤ D ∧ P.body.blocks ≤ B := by
  obtain ⟨P, h1, h2, _, h4⟩ := C62_nesting hL hb hr ha hns hd hC
  have hw := (hr.inv hb).winv.wf
  obtain ⟨funcs, t, F, sch, n, n', hc, hf, hF, hs, ht, hk⟩ := hC
  obtain ⟨fs', t', ec, _, _, _, hent⟩ := convert_ok hw ha.1 hns ha.2.1
  rw [hc] at ec; cases ec
  have hrf := (hent f hf).1
  have := hD f hrf
  have := hB f hrf
  exact ⟨P, h1, by omega, by omega⟩

/-- Materializing an array with one kernel as the first thing works. -/
theorem single_ok {b : Backend V} (hb : Faithful b) {w : World V} (hr : Reachable b w) {a : Nat} (ha : Computed w.g a) (hns : NoScalarReshape w.g a) (ho : Single w.g a)
    (hgpu : b.isGpu = true → NoEmpty w.g a ∧ FitsGrid w.g a) (hlog : w.log = []) : ArgsOK b w (.materialize a) ∧ ∃ w', step b w (.materialize a) = .ok (.unit, w') := by
  have hi := hr.inv hb
  have hbn : base w.g a = a := base_nonview ha.2.1
  have hok : ArgsOK b w (.materialize a) := by
    refine ⟨by rwa [hbn], ?_, by rwa [hbn]⟩
    rw [hlog, List.nil_append]
    obtain ⟨funcs, t, hc, _⟩ := convert_ok hi.winv.wf ha.1 hns ha.2.1
    obtain ⟨hfs, _⟩ := convert_single hi.winv.wf ha.1 hns ha.2.1 ha.2.2 ho.sum ho.once ho.single hc
    have hcop : (w.g.ctx a).op.isConst = false := nonconst_op hi.winv.wf ha.1 ha.2.2
    have hlen : (launchLog b.isGpu w.g a).length ≤ 1 := by
      unfold launchLog launchLogF
      simp only [hcop, ha.2.1, hc, Bool.false_eq_true, if_false]
      split
      · simp
      · refine Nat.le_trans (List.length_filterMap_le _ _) ?_
        rw [List.length_zip, hfs]; simp
    intro p hp q hq _
    match hll : launchLog b.isGpu w.g a with
    | [] => rw [hll] at hp; cases hp
    | [x] => rw [hll] at hp hq; simp at hp hq; rw [hp, hq]
    | _ :: _ :: _ => rw [hll] at hlen; simp at hlen
  obtain ⟨w', hw', _⟩ := materialize_ok hb hi.winv ha.1 hok.1 hok.2.1 (fun hg => kernelSizes_of hi.winv.wf ha.1 hok.1 (hok.2.2 hg))
  refine ⟨hok, w', ?_⟩
  unfold step
  rw [if_pos (by simpa [Call.arrays] using ha.1)]
  simp only [exec1, hw']; rfl

/-- C62 is false for loops: for every `n` the program `x = full((1, …, 1), u); y = -x; y.materialize()`, which uses two arrays with one element, has to compile a function with `n` loops nested
in each other. -/
theorem C62_counterexample_loops {L : Lang} (hL : L ≠ .cuda) {b : Backend V} (hb : Faithful b) (hcpu : b.isGpu = false) (u : V) (n : Nat)
    {digest : Str} (hd : ∀ c ∈ digest, c ∈ "0123456789abcdef".toList) :
    ∃ w w', runAll b Mat.init (manyAxes u n) = .ok w ∧ Reachable b w ∧ ArgsOK b w (.materialize 1) ∧ step b w (.materialize 1) = .ok (.unit, w') ∧
      ∃ text K P, Compiles L false w.g 1 1 digest text K ∧ parse L text = some P ∧ P.body.loops = n := by
  let w0 : World V := { Mat.init with g := [ND.constNode b.A (List.replicate n 1) (List.replicate (prod (List.replicate n 1)).toNat u)] }
  let w1 : World V := { w0 with g := w0.g ++ [ND.elemwiseNode w0.g (.unary .Neg 0) 0] }
  have hs0 : step b Mat.init (.full (List.replicate n 1) u) = .ok (.arr 0, w0) := rfl
  have hs1 : step b w0 (.un .neg 0) = .ok (.arr 1, w1) := rfl
  have hr0 : Reachable b w0 := .call (c := .full (List.replicate n 1) u) .init (.inr (show NonNeg _ from fun x hx => by rw [List.eq_of_mem_replicate hx]; decide)) (by unfold next; rw [hs0])
  have hr1 : Reachable b w1 := .call (c := .un .neg 0) hr0 (.inr trivial) (by unfold next; rw [hs1])
  have hcx : ∀ i, w1.g.ctx i = .const ∨ (i = 1 ∧ w1.g.ctx i = .unary .Neg 0) := by
    intro i
    match i with
    | 0 => exact .inl rfl
    | 1 => exact .inr ⟨rfl, rfl⟩
    | i + 2 => exact .inl rfl
  have hin : ∀ i x, x ∈ (w1.g.ctx i).inputs → w1.g.ctx x = .const := by
    intro i x hx
    rcases hcx i with h | ⟨_, h⟩ <;> rw [h] at hx <;> simp [Ctx.inputs] at hx
    subst hx; rfl
  have ha : Computed w1.g 1 := ⟨Nat.lt_succ_self 1, rfl, by show Ctx.unary .Neg 0 ≠ _; simp⟩
  have hns : NoScalarReshape w1.g 1 := fun i hi ⟨x, hx⟩ => by rcases hcx i with h | ⟨_, h⟩ <;> rw [h] at hx <;> cases hx
  have ho : Single w1.g 1 := by
    refine ⟨fun i _ _ ⟨x, ax, kd, hx⟩ => ?_, fun x hx i j _ _ hxi _ => absurd (hin i x hxi) hx, fun x hx i _ => ?_⟩
    · rcases hcx i with h | ⟨_, h⟩ <;> rw [h] at hx <;> cases hx
    · by_contra hne
      exact hx (hin i x (List.count_pos_iff.1 (by omega)))
  obtain ⟨hok, w', hst⟩ := single_ok hb hr1 ha hns ho (fun h => absurd h (by simp [hcpu])) rfl
  obtain ⟨text, K, P, h1, h2, h3, _⟩ := C62_conditionals hL hb hr1 ha hns ho hd
  refine ⟨w1, w', by simp only [manyAxes, runAll, hs0, hs1], hr1, hok, hst, text, K, P, h1, h2, ?_⟩
  rw [h3]
  show (List.replicate n (1 : Int)).length + 0 = n
  simp

/-- What the graph of `manyPads` looks like. -/
structure Padded (w : World V) (n : Nat) : Prop where
  len : w.g.length = n + 1
  zero : w.g.ctx 0 = .const
  succ : ∀ i, i < n → w.g.ctx (i + 1) = .pad i 0 1 0
  shape : ∀ i, i ≤ n → w.g.shape i = [2 + (i : Int)]
  log : w.log = []

theorem manyPads_run {b : Backend V} (u v : V) (n : Nat) : ∃ w, runAll b Mat.init (manyPads u v n) = .ok w ∧ Reachable b w ∧ Padded w n := by
  induction n with
  | zero =>
    refine ⟨_, rfl, ?_, ?_⟩
    · exact .call (c := .array (.node [.leaf u, .leaf v])) .init (.inr (show Rect _ from by simp [Rect, shapeOf, HasShape, HasShapeL])) rfl
    · exact ⟨rfl, rfl, fun i hi => absurd hi (Nat.not_lt_zero _), fun i hi => by cases Nat.le_zero.1 hi; rfl, rfl⟩
  | succ n ih =>
    obtain ⟨w, e, hr, hd⟩ := ih
    have hsh : w.g.shape n = [2 + (n : Int)] := hd.shape n (by omega)
    have hs : step b w (.pad n 0 1 0) = .ok (.arr (n + 1), { w with g := w.g ++ [ND.padNode w.g n 0 0 1 0] }) := by
      unfold step
      rw [if_pos (by simp [Call.arrays, hd.len])]
      simp [exec1, madeE, ND.pad, Graph.ndim, hsh, pyPos, bind, Except.bind, pure, Except.pure, Graph.push, hd.len, made]
    have hnd : ∀ i, i ≤ n → Graph.nd (w.g ++ [ND.padNode w.g n 0 0 1 0]) i = w.g.nd i := by
      intro i hi
      unfold Graph.nd
      rw [List.getD_eq_getElem?_getD, List.getD_eq_getElem?_getD, List.getElem?_append_left (by rw [hd.len]; omega)]
    have hndl : Graph.nd (w.g ++ [ND.padNode w.g n 0 0 1 0]) (n + 1) = ND.padNode w.g n 0 0 1 0 := by
      have := nd_push w.g (ND.padNode w.g n 0 0 1 0)
      rwa [hd.len] at this
    refine ⟨_, ?_, .call (c := .pad n 0 1 0) hr (.inr ⟨by decide, by rw [hsh]; show 0 ≤ 2 + (n : Int) + (1 + 0); omega⟩) (by unfold next; rw [hs]), ?_⟩
    · have hl : manyPads u v (n + 1) = manyPads u v n ++ [.pad n 0 1 0] := by simp [manyPads, List.range_succ]
      rw [hl, runAll_append e]
      simp only [runAll, hs]
    · refine ⟨by simp [hd.len], by show (Graph.nd _ 0).ctx = _; rw [hnd 0 (by omega)]; exact hd.zero, ?_, ?_, hd.log⟩
      · intro i hi
        show (Graph.nd _ (i + 1)).ctx = _
        by_cases hin : i = n
        · subst hin; rw [hndl]; rfl
        · rw [hnd (i + 1) (by omega)]; exact hd.succ i (by omega)
      · intro i hi
        show (Graph.nd _ i).shape = _
        by_cases hin : i = n + 1
        · subst hin; rw [hndl]; simp [ND.padNode, hsh, geti]; omega
        · rw [hnd i (by omega)]; exact hd.shape i (by omega)

/-- C62 is false for conditionals: for every `n` the program that pads a one-dimensional array `n` times has to compile a function with `n` conditionals nested in each other. -/
theorem C62_counterexample_blocks {L : Lang} (hL : L ≠ .cuda) {b : Backend V} (hb : Faithful b) (hcpu : b.isGpu = false) (u v : V) (n : Nat) (hn : 0 < n)
    {digest : Str} (hd : ∀ c ∈ digest, c ∈ "0123456789abcdef".toList) :
    ∃ w w', runAll b Mat.init (manyPads u v n) = .ok w ∧ Reachable b w ∧ ArgsOK b w (.materialize n) ∧ step b w (.materialize n) = .ok (.unit, w') ∧
      ∃ text K P, Compiles L false w.g n n digest text K ∧ parse L text = some P ∧ P.body.loops = 1 ∧ P.body.blocks = n + 1 := by
  obtain ⟨w, e, hr, hp⟩ := manyPads_run (b := b) u v n
  have hw := (hr.inv hb).winv.wf
  have hlt : n < w.g.length := by rw [hp.len]; omega
  have hctx : ∀ i, i ≤ n → i ≠ 0 → w.g.ctx i = .pad (i - 1) 0 1 0 := by
    intro i hi h0
    have := hp.succ (i - 1) (by omega)
    rwa [show i - 1 + 1 = i by omega] at this
  have hle : ∀ i, Reach w.g n i → i ≤ n := fun i hi => hi.le hw hlt
  have hcx : ∀ i, Reach w.g n i → w.g.ctx i = .const ∨ (i ≠ 0 ∧ w.g.ctx i = .pad (i - 1) 0 1 0) := by
    intro i hi
    by_cases h0 : i = 0
    · subst h0; exact .inl hp.zero
    · exact .inr ⟨h0, hctx i (hle i hi) h0⟩
  have hcn := hctx n (Nat.le_refl n) (by omega)
  have ha : Computed w.g n := ⟨hlt, by rw [hcn]; rfl, by rw [hcn]; simp⟩
  have hns : NoScalarReshape w.g n := fun i hi ⟨x, hx⟩ => by rcases hcx i hi with h | ⟨_, h⟩ <;> rw [h] at hx <;> cases hx
  have ho : Single w.g n := by
    refine ⟨fun i hi _ ⟨x, ax, kd, hx⟩ => ?_, fun x _ i j hi hj hxi hxj => ?_, fun x _ i hi => ?_⟩
    · rcases hcx i hi with h | ⟨_, h⟩ <;> rw [h] at hx <;> cases hx
    · rcases hcx i hi with h | ⟨h0, h⟩ <;> rw [h] at hxi <;> simp [Ctx.inputs] at hxi
      rcases hcx j hj with h | ⟨h0', h⟩ <;> rw [h] at hxj <;> simp [Ctx.inputs] at hxj
      omega
    · rcases hcx i hi with h | ⟨_, h⟩ <;> rw [h] <;> simp [Ctx.inputs, List.count_cons]
      split <;> omega
  obtain ⟨hok, w', hst⟩ := single_ok hb hr ha hns ho (fun h => absurd h (by simp [hcpu])) hp.log
  obtain ⟨text, K, P, h1, h2, h3, h4⟩ := C62_conditionals hL hb hr ha hns ho hd
  have hcd : ∀ i, i ≤ n → condDepth w.g i = i := by
    intro i
    induction i with
    | zero => intro _; rw [condDepth_eq hw (by rw [hp.len]; omega), hp.zero]; rfl
    | succ i ih =>
      intro hi
      rw [condDepth_eq hw (by rw [hp.len]; omega), hp.succ i (by omega)]
      simp only [Ctx.inputs, List.map_cons, List.map_nil, List.foldr_cons, List.foldr_nil, ih (by omega)]
      omega
  have hl : P.body.loops = 1 := by rw [h3, hp.shape n (Nat.le_refl n)]; simp [summedAxes, hcn]
  exact ⟨w, w', e, hr, hok, hst, text, K, P, h1, h2, hl, by rw [h4, hl, hcd n (Nat.le_refl n)]; omega⟩

/-! ### concrete cases -/

/-- The hypotheses of `C62_nesting` and `C62_partial`: the sum of a 2 × 3 matrix over its columns has three nested loops (two dimensions of the result, one summed axis). -/
example : (∃ text K, Compiles .python false (Demo.after [.array Demo.m23, .sum 0 (.tuple [1]) true]).g 1 1 "0123456789abcdef01".toList text K) ∧
    (Demo.after [.array Demo.m23, .sum 0 (.tuple [1]) true]).g.shape 1 = [2, 1] ∧ summedAxes (Demo.after [.array Demo.m23, .sum 0 (.tuple [1]) true]).g 1 = 1 := by
  obtain ⟨ins, sch, K, h⟩ : ∃ ins sch K, Generates false (Demo.after [.array Demo.m23, .sum 0 (.tuple [1]) true]).g 1 1 ins sch K := genOf_exists (by decide +kernel)
  obtain ⟨text, h1, _⟩ := C37_text (L := .python) (by decide) h (digest := "0123456789abcdef01".toList) (by decide)
  exact ⟨⟨text, K, h1⟩, by decide +kernel⟩

/-- 21 nested loops in Python for an array with one element. -/
example : ∃ w w', runAll Demo.py Mat.init (manyAxes 7 21) = .ok w ∧ step Demo.py w (.materialize 1) = .ok (.unit, w') ∧
    ∃ text K P, Compiles .python false w.g 1 1 "0123456789abcdef01".toList text K ∧ parse .python text = some P ∧ P.body.loops = 21 :=
  let ⟨w, w', h1, _, _, h2, h3⟩ := C62_counterexample_loops (L := .python) (by decide) Demo.py_faithful rfl 7 21 (digest := "0123456789abcdef01".toList) (by decide)
  ⟨w, w', h1, h2, h3⟩

/-- 101 levels of indentation in Python for an array with 102 elements. -/
example : ∃ w w', runAll Demo.py Mat.init (manyPads 7 8 100) = .ok w ∧ step Demo.py w (.materialize 100) = .ok (.unit, w') ∧
    ∃ text K P, Compiles .python false w.g 100 100 "0123456789abcdef01".toList text K ∧ parse .python text = some P ∧ P.body.loops = 1 ∧ P.body.blocks = 101 :=
  let ⟨w, w', h1, _, _, h2, h3⟩ := C62_counterexample_blocks (L := .python) (by decide) Demo.py_faithful rfl 7 8 100 (by omega) (digest := "0123456789abcdef01".toList) (by decide)
  ⟨w, w', h1, h2, h3⟩

end Whale.Props
