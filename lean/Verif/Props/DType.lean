import Verif.Spec.DType
import Verif.Props.Kernels
/-
C42: dtype propagation, C47: kernel interfaces.
-/
namespace Whale.Props
open Whale Mat Hist
variable {V : Type}

theorem dtype_new (g : Graph V) (n : Node V) : (g.push n).2.dtype (g.push n).1 = n.dtype := by
  simp [Graph.push, Graph.dtype, Graph.nd]

theorem dtype_old {g : Graph V} {i : Nat} (hi : i < g.length) (n : Node V) : (g.push n).2.dtype i = g.dtype i := by
  simp only [Graph.push, Graph.dtype, Graph.nd, List.getD_eq_getElem?_getD]
  rw [List.getElem?_append_left hi]

/-- The result `r` in heap `g'` has the dtype of `a` in heap `g`. -/
def Inherits (g : Graph V) (a : Nat) (p : Nat × Graph V) : Prop := p.2.dtype p.1 = g.dtype a

theorem inherits_push {g : Graph V} {a : Nat} {n : Node V} (h : n.dtype = g.dtype a) : Inherits g a (g.push n) := (dtype_new g n).trans h

theorem inherits_transpose {g : Graph V} {a : Nat} {axes : List Int} {p : Nat × Graph V} (h : ND.transpose g a axes = .ok p) : Inherits g a p := by
  unfold ND.transpose at h
  by_cases hc : axes.pySort ≠ (List.range (g.ndim a)).map Int.ofNat
  · rw [if_pos hc] at h; cases h
  · rw [if_neg hc] at h
    cases h
    exact inherits_push rfl

theorem inherits_broadcasted {g g' : Graph V} {a b l r : Nat} (ha : a < g.length) (h : ND.broadcasted g a b = .ok ((l, r), g')) : g'.dtype l = g.dtype a := by
  unfold ND.broadcasted at h
  obtain ⟨s, _, h⟩ := except_bind_ok h
  have key : ∀ {l1 g1 r1 g2}, (if g.shape a ≠ s then ND.broadcastTo g a s else (a, g)) = (l1, g1) →
      (if g1.shape b ≠ s then ND.broadcastTo g1 b s else (b, g1)) = (r1, g2) → g2.dtype l1 = g.dtype a := by
    intro l1 g1 r1 g2 h1 h2
    have h3 : l1 < g1.length ∧ g1.dtype l1 = g.dtype a := by
      split at h1
      · cases h1
        exact ⟨by simp [Graph.push], dtype_new _ _⟩
      · cases h1; exact ⟨ha, rfl⟩
    split at h2
    · cases h2
      exact (dtype_old h3.1 _).trans h3.2
    · cases h2; exact h3.2
  generalize hl : (if g.shape a ≠ s then ND.broadcastTo g a s else (a, g)) = p1 at h
  obtain ⟨l1, g1⟩ := p1
  simp only at h
  generalize hr : (if g1.shape b ≠ s then ND.broadcastTo g1 b s else (b, g1)) = p2 at h
  obtain ⟨r1, g2⟩ := p2
  cases h
  exact key hl hr

theorem inherits_binary {g : Graph V} {op : Ops} {a b : Nat} (ha : a < g.length) {p : Nat × Graph V} (h : ND.binary g op a b = .ok p) : Inherits g a p := by
  unfold ND.binary at h
  obtain ⟨⟨⟨l, r⟩, g'⟩, h1, h⟩ := except_bind_ok h
  cases h
  exact (dtype_new _ _).trans (inherits_broadcasted ha h1)

/-- C42: the array returned by any operator, view, reduction or movement call reports the dtype of the call's leftmost operand. -/
theorem C42_derived {b : Backend V} {w w' : World V} {c : Call V} {a r : Nat} (hc : c.leftmost = some a) (h : step b w c = .ok (.arr r, w')) :
    w'.g.dtype r = w.g.dtype a := by
  unfold step at h
  split at h
  case isFalse => cases h
  rename_i hin
  have M : ∀ {p : Nat × Graph V}, made w p = .ok (.arr r, w') → Inherits w.g a p → w'.g.dtype r = w.g.dtype a := by
    intro p hp hi
    simp only [made, Except.ok.injEq, Prod.mk.injEq, Out.arr.injEq] at hp
    obtain ⟨rfl, rfl⟩ := hp
    exact hi
  have ME : ∀ {p : Except Err (Nat × Graph V)}, madeE w p = .ok (.arr r, w') → (∀ q, p = .ok q → Inherits w.g a q) → w'.g.dtype r = w.g.dtype a := by
    intro p hp hi
    cases p with
    | error e => cases hp
    | ok q => exact M hp (hi q rfl)
  cases c <;> simp only [Call.leftmost, reduceCtorEq, Option.some.injEq] at hc <;> subst hc
  case un op x => exact M h (inherits_push rfl)
  case bin op x y =>
    exact ME h (fun q hq => inherits_binary (hin _ (by simp [Call.arrays])) hq)
  case binScalar op x v =>
    have hx : x < w.g.length := hin _ (by simp [Call.arrays])
    refine ME h (fun q hq => ?_)
    have := inherits_binary (g := (ND.constScalar b.A w.g v).2) (by simp [ND.constScalar, ND.const, Graph.push]; omega) hq
    exact this.trans (dtype_old hx _)
  case sum x ax kd =>
    refine ME h (fun q hq => ?_)
    unfold ND.sum at hq
    obtain ⟨ax, _, hq⟩ := except_bind_ok hq
    cases hq
    exact inherits_push rfl
  case getitem x subs =>
    refine ME h (fun q hq => ?_)
    unfold ND.getitem at hq
    split at hq
    · cases hq
    · obtain ⟨ns, _, hq⟩ := except_bind_ok hq
      cases hq
      exact inherits_push rfl
  case broadcastTo x s => exact M h (inherits_push rfl)
  case reshape x s =>
    have hx : x < w.g.length := hin _ (by simp [Call.arrays])
    refine ME h (fun q hq => ?_)
    unfold ND.reshape at hq
    by_cases hp : prod s ≠ prod (w.g.shape x)
    · rw [if_pos hp] at hq; cases hq
    · rw [if_neg hp] at hq
      unfold ND.contiguous at hq
      by_cases hcg : ND.isContiguous w.g x = true
      · rw [if_pos hcg] at hq
        cases hq
        exact inherits_push rfl
      · rw [if_neg hcg] at hq
        cases hq
        exact (dtype_new _ _).trans (dtype_new _ _)
  case T x =>
    refine ME h (fun q hq => ?_)
    unfold ND.T at hq
    split at hq
    · cases hq; rfl
    · exact inherits_transpose hq
  case transpose x axes => exact ME h (fun q hq => inherits_transpose hq)
  case contiguous x =>
    refine M h ?_
    unfold ND.contiguous
    split
    · rfl
    · exact inherits_push rfl
  case pad x d p q =>
    refine ME h (fun q hq => ?_)
    unfold ND.pad at hq
    split at hq
    · cases hq
    split at hq
    · cases hq; rfl
    split at hq
    · cases hq
    · cases hq; exact inherits_push rfl
  case dilate x d st =>
    refine ME h (fun q hq => ?_)
    unfold ND.dilate at hq
    split at hq
    · cases hq
    split at hq
    · cases hq; rfl
    split at hq
    · cases hq
    · cases hq; exact inherits_push rfl

/-- C42: a constant reports int64 or float64 according to its first element. -/
theorem C42_constant {b : Backend V} {w w' : World V} {s : List Int} {v : V} {r : Nat} (hs : 0 < prod s) (h : step b w (.full s v) = .ok (.arr r, w')) :
    w'.g.dtype r = literalDtype b.A v := by
  unfold step at h
  rw [if_pos (by simp [Call.arrays])] at h
  simp only [exec1, made, Except.ok.injEq, Prod.mk.injEq, Out.arr.injEq] at h
  obtain ⟨rfl, rfl⟩ := h
  refine (dtype_new _ _).trans ?_
  obtain ⟨k, hk⟩ : ∃ k, (prod s).toNat = k + 1 := ⟨(prod s).toNat - 1, by omega⟩
  simp only [ND.constNode, hk, List.replicate_succ, ND.constDtype, literalDtype]

/-- C42: every array of every history reports int64 or float64. -/
theorem C42_dtypes {b : Backend V} (hb : Faithful b) {w : World V} (hr : Reachable b w) {a : Nat} (ha : a < w.g.length) :
    w.g.dtype a = .int64 ∨ w.g.dtype a = .float64 := by
  have hw := (hr.inv hb).winv.wf
  induction a using Nat.strongRecOn with
  | ind a ih =>
    have hn := hw a ha
    have up : ∀ x < a, (w.g.nd a).dtype = w.g.dtype x → w.g.dtype a = .int64 ∨ w.g.dtype a = .float64 := fun x hx e => by
      have : w.g.dtype a = w.g.dtype x := e
      rw [this]; exact ih x hx (by omega)
    unfold NodeOK at hn
    cases hc : (w.g.nd a).ctx <;> rw [hc] at hn
    case const => obtain ⟨l, _, _, _, _, _, h⟩ := hn; exact h
    case unary op x => exact up x hn.1 (by rw [hn.2.2]; rfl)
    case binary op l r => exact up l hn.1 (by rw [hn.2.2.2.2]; rfl)
    case sum x axis kd => exact up x hn.1 (by rw [hn.2.2]; rfl)
    case reshape x s => exact up x hn.1 (by rw [hn.2.2.2.2.2]; rfl)
    case broadcast x s => exact up x hn.1 (by rw [hn.2.2]; rfl)
    case slice x s => exact up x hn.1 (by rw [hn.2.2]; rfl)
    case transpose x s => exact up x hn.1 (by rw [hn.2.2]; rfl)
    case contiguous x => exact up x hn.1 (by rw [hn.2]; rfl)
    case pad x d p q => exact up x hn.1 (by rw [hn.2.2]; rfl)
    case dilate x d s => exact up x hn.1 (by rw [hn.2.2.2]; rfl)

/-- C42 as far as it holds for the factories: `ones_like` of a non-empty array has the dtype of its model.  Missing: empty model arrays, and `zeros_like`
(`C42_counterexample_zeros`, `C42_counterexample_empty`). -/
theorem C42_ones_like_partial {b : Backend V} (hb : Faithful b) (hA : Literals b.A) {w w' : World V} (hr : Reachable b w) {a r : Nat} (hne : 0 < prod (w.g.shape a))
    (h : step b w (.onesLike a) = .ok (.arr r, w')) : w'.g.dtype r = w.g.dtype a := by
  unfold step at h
  split at h
  case isFalse => cases h
  rename_i hin
  simp only [exec1, made, Except.ok.injEq, Prod.mk.injEq, Out.arr.injEq] at h
  obtain ⟨rfl, rfl⟩ := h
  refine (dtype_new _ _).trans ?_
  obtain ⟨k, hk⟩ : ∃ k, (prod (w.g.shape a)).toNat = k + 1 := ⟨(prod (w.g.shape a)).toNat - 1, by omega⟩
  simp only [ND.constNode, hk, List.replicate_succ, ND.constDtype]
  rcases C42_dtypes hb hr (hin a (by simp [Call.arrays])) with e | e <;> simp [e, hA.int, hA.float]

/-- What the code guarantees for `zeros_like`: int64, whatever the model array is. -/
theorem C42_zeros_like_partial {b : Backend V} (hA : Literals b.A) {w w' : World V} {a r : Nat} (hne : 0 < prod (w.g.shape a))
    (h : step b w (.zerosLike a) = .ok (.arr r, w')) : w'.g.dtype r = .int64 := by
  unfold step at h
  split at h
  case isFalse => cases h
  simp only [exec1, made, Except.ok.injEq, Prod.mk.injEq, Out.arr.injEq] at h
  obtain ⟨rfl, rfl⟩ := h
  refine (dtype_new _ _).trans ?_
  obtain ⟨k, hk⟩ : ∃ k, (prod (w.g.shape a)).toNat = k + 1 := ⟨(prod (w.g.shape a)).toNat - 1, by omega⟩
  simp only [ND.constNode, hk, List.replicate_succ, ND.constDtype, hA.int, if_true]

/-- C42, exactly, for `full` (and so `full_like`): a non-empty result reports the type of the fill value, an empty one float64. -/
theorem C42_full_exact {b : Backend V} {w w' : World V} {s : List Int} {v : V} {r : Nat} (h : step b w (.full s v) = .ok (.arr r, w')) :
    w'.g.dtype r = if 0 < prod s then literalDtype b.A v else .float64 := by
  by_cases hs : 0 < prod s
  · rw [if_pos hs]; exact C42_constant hs h
  · rw [if_neg hs]
    unfold step at h
    rw [if_pos (by simp [Call.arrays])] at h
    simp only [exec1, made, Except.ok.injEq, Prod.mk.injEq, Out.arr.injEq] at h
    obtain ⟨rfl, rfl⟩ := h
    refine (dtype_new _ _).trans ?_
    have hk : (prod s).toNat = 0 := by omega
    simp only [ND.constNode, hk, List.replicate_zero, ND.constDtype]

/-- C42, exactly, for `ones_like`: the dtype of the model array if it is not empty, float64 otherwise. -/
theorem C42_ones_like_exact {b : Backend V} (hb : Faithful b) (hA : Literals b.A) {w w' : World V} (hr : Reachable b w) {a r : Nat}
    (h : step b w (.onesLike a) = .ok (.arr r, w')) : w'.g.dtype r = if 0 < prod (w.g.shape a) then w.g.dtype a else .float64 := by
  by_cases hs : 0 < prod (w.g.shape a)
  · rw [if_pos hs]; exact C42_ones_like_partial hb hA hr hs h
  · rw [if_neg hs]
    unfold step at h
    split at h
    case isFalse => cases h
    simp only [exec1, made, Except.ok.injEq, Prod.mk.injEq, Out.arr.injEq] at h
    obtain ⟨rfl, rfl⟩ := h
    refine (dtype_new _ _).trans ?_
    have hk : (prod (w.g.shape a)).toNat = 0 := by omega
    simp only [ND.constNode, hk, List.replicate_zero, ND.constDtype]

/-- C42, exactly, for `zeros_like`: int64 if the model array is not empty, float64 otherwise. -/
theorem C42_zeros_like_exact {b : Backend V} (hA : Literals b.A) {w w' : World V} {a r : Nat}
    (h : step b w (.zerosLike a) = .ok (.arr r, w')) : w'.g.dtype r = if 0 < prod (w.g.shape a) then .int64 else .float64 := by
  by_cases hs : 0 < prod (w.g.shape a)
  · rw [if_pos hs]; exact C42_zeros_like_partial hA hs h
  · rw [if_neg hs]
    unfold step at h
    split at h
    case isFalse => cases h
    simp only [exec1, made, Except.ok.injEq, Prod.mk.injEq, Out.arr.injEq] at h
    obtain ⟨rfl, rfl⟩ := h
    refine (dtype_new _ _).trans ?_
    have hk : (prod (w.g.shape a)).toNat = 0 := by omega
    simp only [ND.constNode, hk, List.replicate_zero, ND.constDtype]

/-- C42, exactly: `ones_like` reports the dtype of its model array if and only if that array is not empty or is float64, `zeros_like` if and only if the array is a non-empty int64 or
an empty float64 array. -/
theorem C42_like_iff {b : Backend V} (hb : Faithful b) (hA : Literals b.A) {w w1 w2 : World V} (hr : Reachable b w) {a r1 r2 : Nat}
    (h1 : step b w (.onesLike a) = .ok (.arr r1, w1)) (h2 : step b w (.zerosLike a) = .ok (.arr r2, w2)) :
    (w1.g.dtype r1 = w.g.dtype a ↔ 0 < prod (w.g.shape a) ∨ w.g.dtype a = .float64) ∧
      (w2.g.dtype r2 = w.g.dtype a ↔ (0 < prod (w.g.shape a) ↔ w.g.dtype a = .int64)) := by
  have ha : a < w.g.length := by
    unfold step at h1
    split at h1
    · rename_i hin; exact hin a (by simp [Call.arrays])
    · cases h1
  rw [C42_ones_like_exact hb hA hr h1, C42_zeros_like_exact hA h2]
  by_cases hs : 0 < prod (w.g.shape a) <;> rcases C42_dtypes hb hr ha with e | e <;> simp [hs, e]

/-! ### Numbers that know whether they are `int` or `float` -/

/-- Integers tagged as Python `int` or `float`. -/
inductive Num
  | int (n : Int)
  | float (n : Int)
deriving DecidableEq, Repr

/-- Arithmetic on tagged numbers (only negation and addition matter here). -/
def numA : Scalar Num := ⟨.int, .float 1, fun v => match v with | .int _ => true | .float _ => false, fun _ x => x, fun _ x _ => x, .float 0, .int⟩

theorem numA_literals : Literals numA := ⟨fun _ => rfl, rfl⟩

/-- The Python backend on tagged numbers. -/
def pyNum : Backend Num := pythonBackend numA

/-- The world after a program on tagged numbers. -/
def afterNum (cs : List (Call Num)) : World Num := (runL pyNum Mat.init cs).getD Mat.init

theorem reachNum {cs : List (Call Num)} (h : (runL pyNum Mat.init cs).isSome = true) : Reachable pyNum (afterNum cs) := by
  obtain ⟨w, hw⟩ := Option.isSome_iff_exists.1 h
  have e : afterNum cs = w := by unfold afterNum; rw [hw]; rfl
  rw [e]
  exact (runL_runs (pythonBackend_faithful numA) (.init pyNum) hw .refl).reachable .init

/-- C42 is false in the code: `zeros_like` of an array of floats has dtype int64. -/
theorem C42_counterexample_zeros : ∃ (w : World Num) (a r : Nat) (w' : World Num), Reachable pyNum w ∧ w.g.dtype a = .float64 ∧ w.g.shape a = [2] ∧
    step pyNum w (.zerosLike a) = .ok (.arr r, w') ∧ w'.g.dtype r = .int64 :=
  ⟨afterNum [.full [2] (.float 3)], 0, 1, _, reachNum (by decide +kernel), by decide +kernel, by decide +kernel, rfl, by decide +kernel⟩

/-- C42 is false in the code: `ones_like` of an empty array of integers has dtype float64. -/
theorem C42_counterexample_empty : ∃ (w : World Num) (a r : Nat) (w' : World Num), Reachable pyNum w ∧ w.g.dtype a = .int64 ∧ w.g.shape a = [0] ∧
    step pyNum w (.onesLike a) = .ok (.arr r, w') ∧ w'.g.dtype r = .float64 :=
  ⟨afterNum [.full [2] (.int 3), .getitem 0 [.slice (some 2) none none]], 1, 2, _, reachNum (by decide +kernel), by decide +kernel, by decide +kernel, rfl, by decide +kernel⟩

/-- A case of the theorems: a float matrix times an integer vector is float64, the other way round int64; `ones_like` follows. -/
example : Reachable pyNum (afterNum [.full [2, 2] (.float 3), .full [2] (.int 1), .bin .mul 0 1, .bin .mul 1 0, .onesLike 3, .onesLike 5]) ∧
    (List.range 8).map (afterNum [.full [2, 2] (.float 3), .full [2] (.int 1), .bin .mul 0 1, .bin .mul 1 0, .onesLike 3, .onesLike 5]).g.dtype =
      [.float64, .int64, .int64, .float64, .int64, .int64, .float64, .int64] :=
  ⟨reachNum (by decide +kernel), by decide +kernel⟩

/-! ### C47 -/

theorem zipIdx_map_fst {α β : Type} (l : List α) (f : α → β) (k : Nat) : (l.zipIdx k).map (fun p => f p.1) = l.map f := by
  induction l generalizing k with
  | nil => rfl
  | cons x l ih => simp [List.zipIdx_cons, ih]

/-- C47: a kernel run by `a.materialize()` for array `f` declares one parameter per buffer it is passed – first the output `f`, then the inputs `ins` – and each parameter is
declared with the dtype of the array whose buffer is passed. -/
theorem C47_interface {b : Backend V} (hb : Faithful b) {w : World V} (hr : Reachable b w) {a : Nat} (ha : Computed w.g a) (hns : NoScalarReshape w.g a)
    {f : Nat} {ins : List Nat} {sch : Schedule} {K : Kernel} (hG : Generates b.isGpu w.g a f ins sch K) :
    K.params.map (·.2) = (f :: ins).map w.g.dtype ∧ K.params.head?.map (·.1) = some .out := by
  have hw := (hr.inv hb).winv.wf
  obtain ⟨ha, hv, hc⟩ := ha
  obtain ⟨funcs, t, F, n, n', e, hf, hF, rfl, hs, hK⟩ := hG
  obtain ⟨funcs', t', e', hnd, hpre, hord, htg, _⟩ := convert_good hw ha hns hv hc
  rw [e] at e'; cases e'
  obtain ⟨_, hfc, F', hF', hE, hrefs⟩ := htg.entry f hf
  rw [hF] at hF'; cases hF'
  rw [codegen_params hK]
  refine ⟨?_, rfl⟩
  simp only [Codegen.params, List.map_cons, List.map_append, List.map_map, hE.dtype, List.cons.injEq, true_and]
  congr 1
  · exact zipIdx_map_fst _ w.g.dtype 0
  · have : ∀ d ∈ (Algo.args F.expr).2, ((t d).map (·.outDtype)).getD .int64 = w.g.dtype d := by
      intro d hd
      obtain ⟨_, _, D, hD, hED, _⟩ := htg.entry d (hrefs d (mem_dedup.1 hd)).1
      rw [hD]; exact hED.dtype
    have e2 := zipIdx_map_fst (Algo.args F.expr).2 (fun d => ((t d).map (·.outDtype)).getD .int64) 0
    exact e2.trans (List.map_congr_left this)

/-- A case: a kernel with a float and an integer input. -/
example : Reachable pyNum (afterNum [.full [2, 2] (.float 3), .full [2] (.int 1), .sum 1 .none true, .bin .mul 0 2]) ∧
    Computed (afterNum [.full [2, 2] (.float 3), .full [2] (.int 1), .sum 1 .none true, .bin .mul 0 2]).g 4 ∧
    ((genOf false (afterNum [.full [2, 2] (.float 3), .full [2] (.int 1), .sum 1 .none true, .bin .mul 0 2]).g 4 4).map fun r => (r.1, r.2.2.params.map (·.2))) =
      some ([0, 2], [.float64, .float64, .int64]) :=
  ⟨reachNum (by decide +kernel), ⟨by decide +kernel, by decide +kernel, by decide +kernel⟩, by decide +kernel⟩

end Whale.Props
