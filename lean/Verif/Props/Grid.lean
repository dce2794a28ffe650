import Verif.Proofs.Grid
import Verif.Proofs.Launch
import Verif.Props.Kernels
/-
C56: the size of GPU launches.
-/
namespace Whale.Props
open Whale Mat Hist Kern Codegen
variable {V : Type}

/-- Grid sizes (x, y, z) of the launch of a scheduled kernel. -/
def gridOf (sch : Schedule) : Int × Int × Int := (launchDim sch false .x, launchDim sch false .y, launchDim sch false .z)

/-- Block sizes (x, y, z) of the launch of a scheduled kernel. -/
def blockOf (sch : Schedule) : Int × Int × Int := (launchDim sch true .x, launchDim sch true .y, launchDim sch true .z)

/-- C56: the launch that computes array `f` depends only on the shape of `f`: blocks of 256 threads (one thread for a 0-dimensional array); up to three dimensions, one grid dimension
for each dimension, the last counted in blocks; with more, only the last dimension is distributed, and each thread loops over the others. -/
theorem C56_dims {b : Backend V} (hb : Faithful b) {w : World V} (hr : Reachable b w) {a : Nat} (ha : Computed w.g a) (hns : NoScalarReshape w.g a)
    {f : Nat} {ins : List Nat} {sch : Schedule} {K : Kernel} (hG : Generates true w.g a f ins sch K) :
    gridOf sch = launchGrid (w.g.shape f) ∧ blockOf sch = launchBlock (w.g.shape f) := by
  have hi := (hr.inv hb).winv
  obtain ⟨t, F, n, n', _, hf, _, hE, hR, rfl, hs, hK⟩ := hG.ready hi.wf ha hns
  simp only [gridOf, blockOf, launchDim_gpu hE hs, dimOf, Bool.false_eq_true, if_false, if_true, and_self]

/-- The bounds on a shape: at least one element; at most 2^31 - 1 (x) or 65535 (y, z) blocks in each grid dimension. -/
def ShapeFits : List Int → Prop
  | [] => True
  | [n] => 1 ≤ n ∧ n ≤ 256 * 2147483647
  | [m, n] => (1 ≤ m ∧ m ≤ 2147483647) ∧ (1 ≤ n ∧ n ≤ 256 * 65535)
  | [l, m, n] => (1 ≤ l ∧ l ≤ 2147483647) ∧ (1 ≤ m ∧ m ≤ 65535) ∧ (1 ≤ n ∧ n ≤ 256 * 65535)
  | s => 1 ≤ s.getLastD 0 ∧ s.getLastD 0 ≤ 256 * 2147483647

theorem gridOK_iff (s : List Int) : GridOK (launchGrid s) ↔ ShapeFits s := by
  unfold GridOK
  match s with
  | [] => simp [launchGrid, ShapeFits]
  | [n] => simp only [launchGrid, ShapeFits, blocks]; omega
  | [m, n] => simp only [launchGrid, ShapeFits, blocks]; omega
  | [l, m, n] => simp only [launchGrid, ShapeFits, blocks]; omega
  | i :: j :: k :: l :: s =>
    simp only [launchGrid, ShapeFits]
    generalize (i :: j :: k :: l :: s).getLastD 0 = n
    unfold blocks
    omega

/-- C56, exactly: the device accepts the launch for `f` if and only if the shape of `f` is within the bounds; the block size is always accepted. -/
theorem C56_accepted_iff {b : Backend V} (hb : Faithful b) {w : World V} (hr : Reachable b w) {a : Nat} (ha : Computed w.g a) (hns : NoScalarReshape w.g a)
    {f : Nat} {ins : List Nat} {sch : Schedule} {K : Kernel} (hG : Generates true w.g a f ins sch K) :
    BlockOK (blockOf sch) ∧ (GridOK (gridOf sch) ↔ ShapeFits (w.g.shape f)) := by
  obtain ⟨h1, h2⟩ := C56_dims hb hr ha hns hG
  exact ⟨by rw [h2]; exact launchBlock_ok _, by rw [h1]; exact gridOK_iff _⟩

/-- C56: on a GPU, `a.materialize()` raises if an array it has to launch a kernel for exceeds the bounds. -/
theorem C56_refused {b : Backend V} (hb : Faithful b) (hg : b.isGpu = true) {w : World V} (hr : Reachable b w) {a : Nat} (ha : Computed w.g a) (hns : NoScalarReshape w.g a)
    {f : Nat} {ins : List Nat} {sch : Schedule} {K : Kernel} (hG : Generates true w.g a f ins sch K) (hf : ¬ ShapeFits (w.g.shape f)) :
    ∃ e, step b w (.materialize a) = .error e := by
  have hi := (hr.inv hb).winv
  obtain ⟨t, F, n, n', _, _, hfc, hE, _⟩ := hG.ready hi.wf ha hns
  obtain ⟨funcs, t', _, _, _, hconv, hmem, _⟩ := hG
  cases hs : step b w (.materialize a) with
  | error e => exact ⟨e, rfl⟩
  | ok p =>
    exfalso
    rw [step_eq (by simpa [Call.arrays] using ha.1)] at hs
    cases hm : materialize b w a with
    | error e => simp only [exec1, hm] at hs; cases hs
    | ok w' =>
      have hbn := base_nonview ha.2.1
      have := materialize_fits hg hi.wf ha.1 (by rw [hbn]; exact hns) hm (by rw [hbn]; exact ha.2.2)
      rw [hbn] at this
      exact hf ((gridOK_iff _).1 (this funcs t' hconv f hmem hfc))

/-- C56, as far as it holds: arrays none of whose dimensions is empty or larger than 65535 are always accepted. -/
theorem C56_partial {b : Backend V} (hb : Faithful b) {w : World V} (hr : Reachable b w) {a : Nat} (ha : Computed w.g a) (hns : NoScalarReshape w.g a)
    {f : Nat} {ins : List Nat} {sch : Schedule} {K : Kernel} (hG : Generates true w.g a f ins sch K) (hs : ∀ d ∈ w.g.shape f, 1 ≤ d ∧ d ≤ 65535) :
    GridOK (gridOf sch) ∧ BlockOK (blockOf sch) := by
  obtain ⟨h1, h2⟩ := C56_accepted_iff hb hr ha hns hG
  refine ⟨h2.2 ?_, h1⟩
  generalize w.g.shape f = s at hs
  match s with
  | [] => trivial
  | [n] => have := hs n (by simp); simp only [ShapeFits]; omega
  | [m, n] => have := hs m (by simp); have := hs n (by simp); simp only [ShapeFits]; omega
  | [l, m, n] => have := hs l (by simp); have := hs m (by simp); have := hs n (by simp); simp only [ShapeFits]; omega
  | i :: j :: k :: l :: s =>
    have := hs ((i :: j :: k :: l :: s).getLastD 0) (by
      have hne : (i :: j :: k :: l :: s) ≠ [] := by simp
      have : (i :: j :: k :: l :: s).getLastD 0 = (i :: j :: k :: l :: s).getLast hne := by
        rw [List.getLastD_eq_getLast?, List.getLast?_eq_some_getLast hne]; rfl
      rw [this]; exact List.getLast_mem hne)
    simp only [ShapeFits]; omega

/-- Demonstration program: `b = array([[[7]]]).broadcast_to((1, 70000, 1)); c = -b`. -/
def tallGrid : List (Call Int) := [.array (.node [.node [.node [.leaf 7]]]), .broadcastTo 0 [1, 70000, 1], .un .neg 1]

/-- C56 is false: the kernel for 70000 elements of shape (1, 70000, 1) is launched with grid.y = 70000, and `materialize` raises.
(A CPU backend, or the GPU backend with shape (70000, 1, 1), computes it.) -/
theorem C56_counterexample : Reachable Demo.cuda (Demo.afterOn Demo.cuda tallGrid) ∧ NoEmpty (Demo.afterOn Demo.cuda tallGrid).g 2 ∧
    (∃ ins sch K, Generates true (Demo.afterOn Demo.cuda tallGrid).g 2 2 ins sch K ∧ gridOf sch = (1, 70000, 1) ∧ ¬ GridOK (gridOf sch)) ∧
    (∃ e, step Demo.cuda (Demo.afterOn Demo.cuda tallGrid) (.materialize 2) = .error e) ∧
    GridOK (launchGrid [70000, 1, 1]) := by
  have hr : Reachable Demo.cuda (Demo.afterOn Demo.cuda tallGrid) := Demo.reachOn Demo.cuda_faithful (by decide +kernel)
  have hw := (hr.inv Demo.cuda_faithful).winv.wf
  have hc : Computed (Demo.afterOn Demo.cuda tallGrid).g 2 := ⟨by decide +kernel, by decide +kernel, by decide +kernel⟩
  have hns : NoScalarReshape (Demo.afterOn Demo.cuda tallGrid).g 2 := noScalarReshape_of hw (by decide +kernel) (by decide +kernel)
  obtain ⟨ins, sch, K, hG⟩ : ∃ ins sch K, Generates true (Demo.afterOn Demo.cuda tallGrid).g 2 2 ins sch K := genOf_exists (by decide +kernel)
  have hsh : (Demo.afterOn Demo.cuda tallGrid).g.shape 2 = [1, 70000, 1] := by decide +kernel
  obtain ⟨h1, _⟩ := C56_dims Demo.cuda_faithful hr hc hns hG
  rw [hsh] at h1
  refine ⟨hr, fun i hi => ?_, ⟨ins, sch, K, hG, by rw [h1]; rfl, by rw [h1]; decide⟩, C56_refused Demo.cuda_faithful rfl hr hc hns hG (by rw [hsh]; simp [ShapeFits]), by decide⟩
  have hl : i < 3 := Nat.lt_of_le_of_lt (hi.le hw (by decide +kernel)) (by decide)
  have : ∀ i < 3, 0 < prod ((Demo.afterOn Demo.cuda tallGrid).g.shape i) := by decide +kernel
  exact this i hl

/-- The hypotheses of `C56_dims`, `C56_accepted_iff` and `C56_partial` are met: a 3 × 2 result is computed with grid (3, 1, 1). -/
example : Reachable Demo.cuda (Demo.afterOn Demo.cuda kdemo) ∧ Computed (Demo.afterOn Demo.cuda kdemo).g 4 ∧ NoScalarReshape (Demo.afterOn Demo.cuda kdemo).g 4 ∧
    (∃ ins sch K, Generates true (Demo.afterOn Demo.cuda kdemo).g 4 4 ins sch K) ∧ (Demo.afterOn Demo.cuda kdemo).g.shape 4 = [3, 2] ∧
    ((genOf true (Demo.afterOn Demo.cuda kdemo).g 4 4).map fun r => (gridOf r.2.1, blockOf r.2.1)) = some ((3, 1, 1), (256, 1, 1)) :=
  ⟨Demo.reachOn Demo.cuda_faithful (by decide +kernel), ⟨by decide +kernel, by decide +kernel, by decide +kernel⟩,
    noScalarReshape_of ((Demo.reachOn (cs := kdemo) Demo.cuda_faithful (by decide +kernel)).inv Demo.cuda_faithful).winv.wf (by decide +kernel) (by decide +kernel), genOf_exists (by decide +kernel),
    by decide +kernel, by decide +kernel⟩

end Whale.Props
