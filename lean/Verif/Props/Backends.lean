import Verif.Proofs.RelatedC
import Verif.Props.Semantics
/-
C50: the same program on two backends.
-/
namespace Whale.Props
open Whale Mat Hist Sem
variable {V V1 V2 : Type} {R : V1 → V2 → Prop}

/-- C50.  Run the same program on any two backends, over any two number systems in which the numbers of the program and the constants 0, 1, 2 and 1.0 correspond.  Every call
but `materialize` and `tolist` raises the same exception in both sessions, or returns the same (the n-th) array in both, or None in both. -/
theorem C50_outcome {b1 : Backend V1} {b2 : Backend V2} (hb1 : Faithful b1) (hb2 : Faithful b2) (hA : SameConstants R b1.A b2.A) {w1 : World V1} {w2 : World V2} (h : Both R b1 b2 w1 w2) {c : Call (V1 × V2)}
    (hc : SameCall R b1.A b2.A c) (hl : ∀ a, c ≠ .materialize a ∧ c ≠ .tolist a) :
    (∃ e, step b1 w1 (c.map Prod.fst) = .error e ∧ step b2 w2 (c.map Prod.snd) = .error e) ∨
    (∃ v1 v2 a, step b1 w1 (c.map Prod.fst) = .ok (.arr a, v1) ∧ step b2 w2 (c.map Prod.snd) = .ok (.arr a, v2)) ∨
    (∃ v1 v2, step b1 w1 (c.map Prod.fst) = .ok (.unit, v1) ∧ step b2 w2 (c.map Prod.snd) = .ok (.unit, v2)) := by
  have hz : lazyCall c = true := by
    by_contra hn
    rcases notLazy hn with ⟨a, rfl⟩ | ⟨a, rfl⟩
    · exact (hl a).1 rfl
    · exact (hl a).2 rfl
  have := step_rel hA (h.rel hb1 hb2 hA) hc hz
  match hx : step b1 w1 (c.map Prod.fst), hy : step b2 w2 (c.map Prod.snd), this with
  | .ok (o1, v1), .ok (o2, v2), h =>
    match o1, o2, h with
    | .arr a, .arr _, ⟨rfl, _⟩ => exact .inr (.inl ⟨v1, v2, a, rfl, rfl⟩)
    | .unit, .unit, _ => exact .inr (.inr ⟨v1, v2, rfl, rfl⟩)
  | .error e, .error _, rfl => exact .inl ⟨e, rfl, rfl⟩

/-- C50.  The two sessions hold the same arrays: the same number of them, of the same shapes and dtypes, and gradients in the same places. -/
theorem C50_shape {b1 : Backend V1} {b2 : Backend V2} (hb1 : Faithful b1) (hb2 : Faithful b2) (hA : SameConstants R b1.A b2.A) {w1 : World V1} {w2 : World V2} (h : Both R b1 b2 w1 w2) :
    w1.g.length = w2.g.length ∧ w1.grad = w2.grad ∧ ∀ a, w1.g.shape a = w2.g.shape a ∧ w1.g.dtype a = w2.g.dtype a := by
  have hr := h.rel hb1 hb2 hA
  exact ⟨hr.g.length, hr.grad, fun a => ⟨congrFun hr.g.shape a, congrFun hr.g.dtype a⟩⟩

/-- C50.  If moreover the operations of both number systems take corresponding numbers to corresponding numbers, then reading an array back in both sessions gives lists of the same
form with corresponding numbers.  (Partial: on the numbers of Python and C the operations of whale do not all correspond, see the counterexamples.) -/
theorem C50_agree_partial {b1 : Backend V1} {b2 : Backend V2} (hb1 : Faithful b1) (hb2 : Faithful b2) (hA : SameConstants R b1.A b2.A) (hR : Respects R b1.A b2.A)
    {w1 : World V1} {w2 : World V2} (h : Both R b1 b2 w1 w2) {a : Nat} {l1 l2 v1 v2} (h1 : step b1 w1 (.tolist a) = .ok (.list l1, v1)) (h2 : step b2 w2 (.tolist a) = .ok (.list l2, v2)) :
    RelatedLists R l1 l2 := by
  have hr := h.rel hb1 hb2 hA
  have key : ∀ {V : Type} {b : Backend V} {w : World V} {l v}, step b w (.tolist a) = .ok (.list l, v) → a < w.g.length ∧ tolist b w a = .ok (l, v) := by
    intro V b w l v h
    unfold step at h
    split at h
    · rename_i hin
      simp only [exec1] at h
      refine ⟨hin a (by simp [Call.arrays]), ?_⟩
      cases ht : tolist b w a with
      | error e => rw [ht] at h; cases h
      | ok p => rw [ht] at h; cases h; rfl
    · cases h
  obtain ⟨a1, t1⟩ := key h1
  obtain ⟨a2, t2⟩ := key h2
  have d1 := tolist_base (h.reachable.1.inv hb1).winv a1 t1
  have d2 := tolist_base (h.reachable.2.inv hb2).winv a2 t2
  have hd := den_rel hR hr.g (base w1.g a)
  rw [← base_rel hr.g a, ← hr.g.shape, ← hr.g.strides, ← hr.g.offset] at d2
  exact toNdlist_rel (flatten_rel hd.1 hd.2) _ _ _ d1 d2

/-- C50.  With the same numbers everywhere, two sessions read the same lists: on the CPU or a GPU, for every order in which threads run and every content of fresh memory. -/
theorem C50_same {A : Scalar V} {b1 b2 : Backend V} (hb1 : Faithful b1) (hb2 : Faithful b2) (hA1 : b1.A = A) (hA2 : b2.A = A)
    {w1 w2 : World V} (h : Both Eq b1 b2 w1 w2) {a : Nat} {l1 l2 v1 v2} (h1 : step b1 w1 (.tolist a) = .ok (.list l1, v1)) (h2 : step b2 w2 (.tolist a) = .ok (.list l2, v2)) : l1 = l2 := by
  obtain ⟨l, rfl, rfl, hl⟩ := C50_agree_partial hb1 hb2 (by rw [hA1, hA2]; exact ⟨⟨rfl, rfl⟩, ⟨rfl, rfl⟩, ⟨rfl, rfl⟩, ⟨rfl, rfl⟩⟩)
    (by rw [hA1, hA2]; exact ⟨rfl, by rintro op a _ rfl; rfl, by rintro op a _ c _ rfl rfl; rfl⟩) h h1 h2
  have : l.map Prod.snd = (l.map Prod.fst).map id := map_snd fun p hp => (hl p hp).symm
  rw [this, map_id]

/-- C50, integers.  Run the same program in Python and in C or CUDA (where the arithmetic is that of `int64_t`).  If an array is computed from integers by negation, sum, difference and
product (and all data movement) and no result on the way leaves the 64-bit range, then both sessions read back the same list of integers. -/
theorem C50_int {S D : Type} (O : CFloats S D) (ov : Bool) {L : Lang} (hL : L ≠ .python) (j1 : Py D) (j2 : CVal S D) {b1 : Backend (Py D)} {b2 : Backend (CVal S D)} (hb1 : Faithful b1) (hb2 : Faithful b2)
    (hA1 : b1.A = scalarOf .python (pyNum O.double) .int64 j1) (hA2 : b2.A = scalarOf L (cNum ov O) .int64 j2) {w1 : World (Py D)} {w2 : World (CVal S D)} (h : Both SameC b1 b2 w1 w2) {a : Nat}
    (hno : NoOffsetReshape w1.g a) (hx : ∀ v ∈ leaves (den exact64 (Graph.mapData asInt64 w1.g) a).toNested, v ≠ none)
    {l1 l2 v1 v2} (h1 : step b1 w1 (.tolist a) = .ok (.list l1, v1)) (h2 : step b2 w2 (.tolist a) = .ok (.list l2, v2)) :
    ∃ n : Nested Int, l1 = n.map .int ∧ l2 = n.map .i64 := by
  have hr := h.rel hb1 hb2 (by rw [hA1, hA2]; exact sameC_constants O ov hL j1 j2)
  have e1 := tolist_value hb1 h.reachable.1 hno h1
  have e2 := tolist_value hb2 h.reachable.2 ((noOffset_rel hr.g a).1 hno) h2
  have r1 := den_rel (exact_py O.double j1) (graph_exact_py w1.g) a
  have r2 := den_rel (exact_c O ov hL j2) (graph_exact_c hr.g) a
  rw [hA1] at e1; rw [hA2] at e2
  obtain ⟨m1, x1, y1, z1⟩ := toNested_rel r1.1 r1.2
  obtain ⟨m2, x2, y2, z2⟩ := toNested_rel r2.1 r2.2
  rw [x1] at hx
  refine ⟨(m1.map Prod.fst).map (·.getD 0), ?_, ?_⟩
  · rw [e1, y1, map_map, map_snd (f := fun v : Option Int => Py.int (v.getD 0))]
    rintro ⟨u, v⟩ hp
    have hn := hx u (by rw [leaves_map]; exact List.mem_map_of_mem hp)
    have := z1 _ hp
    cases u with
    | none => exact absurd rfl hn
    | some i => exact this i rfl
  · rw [← x1] at hx ⊢
    rw [x2] at hx ⊢
    rw [e2, y2, map_map, map_snd (f := fun v : Option Int => CVal.i64 (v.getD 0))]
    rintro ⟨u, v⟩ hp
    have hn := hx u (by rw [leaves_map]; exact List.mem_map_of_mem hp)
    have := z2 _ hp
    cases u with
    | none => exact absurd rfl hn
    | some i => exact (this i rfl).1

/-! ### examples -/

/-- An integer in both languages. -/
def num (i : Int) : Py Rat × CVal Rat Rat := (.int i, .i64 i)

def row (l : List Int) : Nested (Py Rat × CVal Rat Rat) := .node (l.map fun i => .leaf (num i))

theorem sameC_num {b1 : Backend (Py Rat)} {b2 : Backend (CVal Rat Rat)} (h1 : b1.A = scalarOf .python (pyNum rat) .int64 (.int 0)) (h2 : b2.A = scalarOf .cuda (cNum true ratC) .int64 (.i64 77)) {i : Int}
    (h : Int64 i) : SameNumber SameC b1.A b2.A (num i).1 (num i).2 := by
  rw [h1, h2]
  exact ⟨.int h, rfl⟩

/-- A sum over the products of a matrix with its rows reversed, negated, and shifted by a constant. -/
def exactProg : List (Call (Py Rat × CVal Rat Rat)) :=
  [.array (.node [row [1, 2, 3], row [4, 5, 2000000000]]), .transpose 0 [1, 0], .bin .mul 1 1, .sum 2 (.int 0) false, .un .neg 3, .binScalar .add 4 (num 7), .pad 7 0 1 0, .materialize 8]

theorem exactProg_same : ∀ c ∈ exactProg, SameCall SameC pyFrac.A (cInts true).A c := by
  have key := fun {i : Int} (h : Int64 i) => sameC_num (b1 := pyFrac) (b2 := cInts true) rfl rfl h
  intro c hc
  simp only [exactProg, List.mem_cons, List.not_mem_nil, or_false] at hc
  rcases hc with rfl | rfl | rfl | rfl | rfl | rfl | rfl | rfl <;> refine ⟨?_, by intro n h; cases h⟩
  · intro p hp
    simp only [Call.numbers, leaves, leavesL, row, List.map_cons, List.map_nil, List.cons_append, List.nil_append, List.append_nil, List.mem_cons, List.not_mem_nil, or_false] at hp
    rcases hp with rfl | rfl | rfl | rfl | rfl | rfl <;> exact key (by decide)
  all_goals try (intro p hp; cases hp; done)
  intro p hp
  simp only [Call.numbers, List.mem_singleton] at hp
  subst hp
  exact key (by decide)

/-- The nested list an array is read back as. -/
def listOf (b : Backend V) (w : World V) (a : Nat) : Option (List Int × List V) := match step b w (.tolist a) with
  | .ok (.list l, _) => some (shapeOf l, leaves l)
  | _ => none

/-- The sessions after a program. -/
def pyAfter (cs : List (Call (Py Rat × CVal Rat Rat))) : World (Py Rat) := Demo.afterOn pyFrac (cs.map (Call.map Prod.fst))
noncomputable def cudaAfter (cs : List (Call (Py Rat × CVal Rat Rat))) : World (CVal Rat Rat) := Demo.afterOn (cInts true) (cs.map (Call.map Prod.snd))

/-- The hypotheses of `C50_outcome`, `C50_shape` and `C50_int` are met, and both sessions return a list. -/
example : Both SameC pyFrac (cInts true) (pyAfter exactProg) (cudaAfter exactProg) ∧ SameConstants SameC pyFrac.A (cInts true).A ∧ NoOffsetReshape (pyAfter exactProg).g 8 ∧
    (∀ v ∈ leaves (den exact64 (Graph.mapData asInt64 (pyAfter exactProg).g) 8).toNested, v ≠ none) ∧
    listOf pyFrac (pyAfter exactProg) 8 = some ([3], [.int 0, .int (-7), .int (-4000000000000000034)]) ∧
    listOf (cInts true) (cudaAfter exactProg) 8 = some ([3], [.i64 0, .i64 (-7), .i64 (-4000000000000000034)]) := by
  refine ⟨bothOn (pythonBackend_faithful _) (demoBackend_faithful _ _ _ _) exactProg_same ?_ ?_, sameC_constants ratC true (by decide) _ _, .base ?_, ?_, ?_, ?_⟩ <;> decide +kernel

/-- The exception a call raises. -/
def raised (b : Backend V) (w : World V) (c : Call V) : Option Err := match step b w c with
  | .error e => some e
  | _ => none

/-- A rejected call is rejected in both sessions with the same exception. -/
example : SameCall SameC pyFrac.A (cInts true).A (.reshape 8 [5]) ∧ raised pyFrac (pyAfter exactProg) (.reshape 8 [5]) = some .invalidReshape ∧
    raised (cInts true) (cudaAfter exactProg) (.reshape 8 [5]) = some .invalidReshape :=
  ⟨⟨(fun p hp => by cases hp), (fun n h => by cases h)⟩, by decide +kernel, by decide +kernel⟩

/-- Equal numbers on the CPU and on a GPU. -/
def sameProg : List (Call (Int × Int)) := [.array (.node [.leaf (1, 1), .leaf (2, 2)]), .un .neg 0, .bin .mul 0 1, .materialize 2]

theorem sameProg_both : Both Eq Demo.py Demo.cuda (Demo.afterOn Demo.py (sameProg.map (Call.map Prod.fst))) (Demo.afterOn Demo.cuda (sameProg.map (Call.map Prod.snd))) := by
  refine bothOn Demo.py_faithful Demo.cuda_faithful ?_ (by decide +kernel) (by decide +kernel)
  intro c hc
  simp only [sameProg, List.mem_cons, List.not_mem_nil, or_false] at hc
  rcases hc with rfl | rfl | rfl | rfl <;> refine ⟨?_, by intro n h; cases h⟩
  · intro p hp
    simp only [Call.numbers, leaves, leavesL, List.nil_append, List.cons_append, List.append_nil, List.mem_cons, List.not_mem_nil, or_false] at hp
    rcases hp with rfl | rfl <;> exact ⟨rfl, rfl⟩
  all_goals (intro p hp; cases hp)

/-- The hypotheses of `C50_same` (so those of `C50_agree_partial`) are met. -/
example : Both Eq Demo.py Demo.cuda (Demo.afterOn Demo.py (sameProg.map (Call.map Prod.fst))) (Demo.afterOn Demo.cuda (sameProg.map (Call.map Prod.snd))) ∧ Demo.py.A = Demo.Z ∧ Demo.cuda.A = Demo.Z ∧
    listOf Demo.py (Demo.afterOn Demo.py (sameProg.map (Call.map Prod.fst))) 2 = some ([2], [-1, -4]) ∧
    listOf Demo.cuda (Demo.afterOn Demo.cuda (sameProg.map (Call.map Prod.snd))) 2 = some ([2], [-1, -4]) :=
  ⟨sameProg_both, rfl, rfl, by decide +kernel, by decide +kernel⟩

/-- `backward` left in both sessions when only the result (array 2) has a gradient. -/
example : Both Eq Demo.py Demo.cuda (Bwd.seed Demo.Z (Demo.afterOn Demo.py (sameProg.map (Call.map Prod.fst))) 2) (Bwd.seed Demo.Z (Demo.afterOn Demo.cuda (sameProg.map (Call.map Prod.snd))) 2) := by
  have same : SameConstants Eq Demo.Z Demo.Z := ⟨⟨rfl, rfl⟩, ⟨rfl, rfl⟩, ⟨rfl, rfl⟩, ⟨rfl, rfl⟩⟩
  refine .stopped (y := 2) (w1 := Demo.afterOn Demo.py (sameProg.map (Call.map Prod.fst))) (w2 := Demo.afterOn Demo.cuda (sameProg.map (Call.map Prod.snd))) sameProg_both (by decide +kernel) ?_ .seeded
    (by decide +kernel) ?_ .seeded (by decide +kernel)
    (seed_rel same (sameProg_both.rel Demo.py_faithful Demo.cuda_faithful same) 2).grad
  · exact argsOKb_sound (c := .backward 2) (by decide +kernel) (sameProg_both.reachable.1.inv Demo.py_faithful).winv.wf (by decide +kernel)
  · have h2 : 2 < (Demo.afterOn Demo.cuda (sameProg.map (Call.map Prod.snd))).g.length := by decide +kernel
    have ha : argsOKb Demo.cuda (Demo.afterOn Demo.cuda (sameProg.map (Call.map Prod.snd))) (.backward 2) = true := by decide +kernel
    obtain ⟨_, hr⟩ := Both.reachable sameProg_both
    generalize Demo.afterOn Demo.cuda (sameProg.map (Call.map Prod.snd)) = w at h2 ha hr ⊢
    have hw := (Reachable.inv Demo.cuda_faithful hr).winv.wf
    exact argsOKb_sound (fun a h => by rw [show a = 2 from List.mem_singleton.1 h]; exact h2) hw ha

/-! ### counterexamples -/

/-- One over two. -/
def divProg : List (Call (Py Rat × CVal Rat Rat)) := [.array (row [1]), .array (row [2]), .bin .truediv 0 1, .materialize 2]

/-- C50 does not hold for division: with integers 1/2 is 0.5 in Python and 0 in C and CUDA. -/
theorem C50_counterexample_division : Both SameC pyFrac (cInts true) (pyAfter divProg) (cudaAfter divProg) ∧
    listOf pyFrac (pyAfter divProg) 2 = some ([1], [.flt (1 / 2)]) ∧ listOf (cInts true) (cudaAfter divProg) 2 = some ([1], [.i64 0]) := by
  refine ⟨bothOn (pythonBackend_faithful _) (demoBackend_faithful _ _ _ _) ?_ ?_ ?_, ?_, ?_⟩
  · have key := fun {i : Int} (h : Int64 i) => sameC_num (b1 := pyFrac) (b2 := cInts true) rfl rfl h
    intro c hc
    simp only [divProg, List.mem_cons, List.not_mem_nil, or_false] at hc
    rcases hc with rfl | rfl | rfl | rfl <;> refine ⟨?_, by intro n h; cases h⟩
    · intro p hp
      simp only [Call.numbers, leaves, leavesL, row, List.map_cons, List.map_nil, List.append_nil, List.mem_cons, List.not_mem_nil, or_false] at hp
      subst hp
      exact key (by decide)
    · intro p hp
      simp only [Call.numbers, leaves, leavesL, row, List.map_cons, List.map_nil, List.append_nil, List.mem_cons, List.not_mem_nil, or_false] at hp
      subst hp
      exact key (by decide)
    all_goals (intro p hp; cases hp)
  all_goals decide +kernel

/-- Rational numbers with powers. -/
def ratPow : Floats Rat := { rat with fn := fun f xs => match xs with
  | [x, y] => if f = "pow".toList ∧ y.den = 1 ∧ 0 ≤ y.num then some (x ^ y.num.toNat) else none
  | _ => none }

/-- Running the source of the kernel of array `f` on other numbers than those of the session. -/
def callAs {W : Type} (L : Lang) (N : Num W) (isGpu : Bool) (g : Graph V) (a f : Nat) (arrays : List (List W)) : Option (Except Fault (List W)) := do
  let s ← sourceOf L isGpu g a f "0123456789abcdef".toList
  let p ← Syntax.parse L s.toList
  pure (call L N (fun _ _ => none) p arrays)

/-- The gradient of `x ** 2` at the floating point number `x = 1.5`. -/
def gradProg : List (Call (Py Rat)) := [.array (.node [.leaf (.flt (3 / 2))]), .binScalar .pow 0 (.int 2), .backward 3]

/-- C50 does not hold for gradients of powers: the gradient of `x ** 2` is computed by a kernel whose C variables are of type `int64_t` (that of the exponent).  At 1.5 running the
generated Python source gives 3, running the generated C source gives 2. -/
theorem C50_counterexample_gradient : let w := Demo.afterOn pyFrac gradProg
    Reachable pyFrac w ∧ w.grad 0 = some 10 ∧ w.g.dtype 0 = .float64 ∧ w.g.dtype 10 = .int64 ∧ (genOf false w.g 10 10).map (·.1) = some [0, 1, 5, 4, 2] ∧
    callAs .python (pyNum ratPow) false w.g 10 10 [[.int 0], [.flt (3 / 2)], [.int 2], [.int 1], [.flt 1], [.int 2]] = some (.ok [.flt 3]) ∧
    callAs .clang (cNum false ⟨ratPow, ratPow, id, id⟩) false w.g 10 10 [[.i64 0], [.f64 (3 / 2)], [.i64 2], [.i64 1], [.f64 1], [.i64 2]] = some (.ok [.i64 2]) := by
  refine ⟨Demo.reachOn (pythonBackend_faithful _) ?_, ?_, ?_, ?_, ?_, ?_, ?_⟩ <;> decide +kernel

end Whale.Props
