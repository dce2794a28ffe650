import Verif.Proofs.CacheLog
/-
C25: the kernel cache is transparent – as far as it is.

The cache key of a kernel is a tuple describing its loops, its schedule and its expression (materialize.py:73-113).  The expression part has no case for conditionals (pad and
dilate become `None`), and for the result of another kernel it records that kernel's expression, but neither which argument it is nor its shape.
-/
namespace Whale.Props
open Whale Hist Mat
variable {V : Type}

/-- C25 as far as it holds: two kernels whose cache keys are equal have the same code, if the key contains no conditional (`handled`) and the two kernels read the results of other
kernels in the same pattern and with the same shapes and dtypes (`funcSig`).  Everything else – sizes, strides, offsets, dtypes and aliasing of the constants read, operations, index
arithmetic, reductions, loops, schedule, output – is identified by the key.  The two kernels may come from different graphs, i.e. different moments of the session.
Missing: keys with conditionals (`C25_counterexample_pad`) and kernels reading kernel results in different patterns or shapes (`C25_counterexample_sharing`, `C25_counterexample_shape`). -/
theorem C25_same_key_partial {g1 g2 : Graph V} {t1 t2 : Tbl} {n1 n2 : Nat} {F1 F2 : Func} {s1 s2 : Schedule} {k : Key} {isGpu : Bool}
    (h1 : cacheKey g1 t1 n1 F1 s1 = .ok k) (h2 : cacheKey g2 t2 n2 F2 s2 = .ok k)
    (q1 : Sched.schedule isGpu F1 = .ok s1) (q2 : Sched.schedule isGpu F2 = .ok s2)
    (hh : k.expr.handled = true) (hsig : funcSig t1 F1.expr = funcSig t2 F2.expr) :
    s1 = s2 ∧ freshCode g1 t1 F1 s1 = freshCode g2 t2 F2 s2 :=
  freshCode_of_key h1 h2 q1 q2 hh hsig

/-- C25: in any session, launches whose keys contain no conditional and that read only constants never collide: the precondition of `materialize()` about cache keys
(`ArgsOK`) is met automatically. -/
theorem C25_plain_partial {b : Backend V} (hb : Faithful b) {w : World V} (hr : Reachable b w) (a : Nat) (hp : ∀ p ∈ w.log ++ launchLog b.isGpu w.g a, p.1.expr.plain = true) :
    NoCollision (w.log ++ launchLog b.isGpu w.g a) := by
  have hpl : ∀ p ∈ w.log ++ launchLog b.isGpu w.g a, Planned V b.isGpu p := by
    intro p h
    rcases List.mem_append.1 h with h | h
    · exact hr.planned hb p h
    · exact launchLog_planned _ _ _ p h
  intro p h1 q h2 e
  obtain ⟨g1, t1, n1, F1, s1, a1, b1, c1⟩ := hpl p h1
  obtain ⟨g2, t2, n2, F2, s2, a2, b2, c2⟩ := hpl q h2
  rw [← e] at a2
  have k1 := hp p h1
  rw [c1, c2]
  exact (freshCode_of_key a1 a2 b1 b2 (EKey.plain_handled k1) (by simp only [funcSig, cacheKey_plain a1 k1, cacheKey_plain a2 k1, List.map_nil])).2

/-- C25: `materialize()` with whatever is in the cache, and `materialize()` after emptying the cache (so that every kernel is generated and compiled afresh), both return, and afterwards
every array that can be read in both cases reads the same; the materialized one can.  The domain `ArgsOK` excludes colliding keys. -/
theorem C25_transparent_partial {b : Backend V} (hb : Faithful b) {w : World V} (hr : Reachable b w) {a : Nat} (ha : a < w.g.length) (hargs : ArgsOK b w (.materialize a)) :
    ∃ w0 w1 w2, step b w .reset = .ok (.unit, w0) ∧ w0.cache = [] ∧ step b w (.materialize a) = .ok (.unit, w1) ∧ step b w0 (.materialize a) = .ok (.unit, w2) ∧
      (∃ l w3 w4, step b w1 (.tolist a) = .ok (.list l, w3) ∧ step b w2 (.tolist a) = .ok (.list l, w4)) ∧
      ∀ c o o' w3 w4, step b w1 (.tolist c) = .ok (o, w3) → step b w2 (.tolist c) = .ok (o', w4) → o = o' := by
  have hi := hr.inv hb
  obtain ⟨w1, e1, r1⟩ := materialize_ok hb hi.winv ha hargs.1 hargs.2.1 (fun hg => kernelSizes_of hi.winv.wf ha hargs.1 (hargs.2.2 hg))
  have s1 : step b w (.materialize a) = .ok (.unit, w1) := by
    rw [step_eq (by simpa [Call.arrays] using ha)]; simp only [exec1, e1, Except.map]
  let w0 : World V := { w with cache := [], hits := fun _ => 0, hist := [], log := [], epoch := w.tick }
  have s0 : step b w .reset = .ok (.unit, w0) := by rw [step_eq (by simp [Call.arrays])]; rfl
  have hr0 : Reachable b w0 := hr.call (c := .reset) (.inr trivial) (by unfold next; rw [s0])
  have hi0 := hr0.inv hb
  have hargs0 : ArgsOK b w0 (.materialize a) := ⟨hargs.1, fun p hp q hq => hargs.2.1 p (List.mem_append_right _ (show p ∈ launchLog b.isGpu w.g a from hp)) q (List.mem_append_right _ (show q ∈ launchLog b.isGpu w.g a from hq)), hargs.2.2⟩
  have ha0 : a < w0.g.length := ha
  obtain ⟨w2, e2, r2⟩ := materialize_ok hb hi0.winv ha0 hargs0.1 hargs0.2.1 (fun hg => kernelSizes_of hi0.winv.wf ha0 hargs0.1 (hargs0.2.2 hg))
  have s2 : step b w0 (.materialize a) = .ok (.unit, w2) := by
    rw [step_eq (by simpa [Call.arrays] using ha0)]; simp only [exec1, e2, Except.map]
  have hi1 := (hr.call (.inr hargs) (show next b w (.materialize a) = some w1 by unfold next; rw [s1])).inv hb
  have hi2 := (hr0.call (.inr hargs0) (show next b w0 (.materialize a) = some w2 by unfold next; rw [s2])).inv hb
  have hg : w2.g = w1.g := r2.g.trans r1.g.symm
  have key : ∀ c o o' w3 w4, step b w1 (.tolist c) = .ok (o, w3) → step b w2 (.tolist c) = .ok (o', w4) → o = o' := by
    intro c o o' w3 w4 h1 h2
    have hc1 : c < w1.g.length := by
      unfold step at h1
      split at h1
      · rename_i hin; exact hin c (by simp [Call.arrays])
      · cases h1
    have hc2 : c < w2.g.length := by rw [hg]; exact hc1
    rw [step_tolist hc1] at h1
    rw [step_tolist hc2] at h2
    cases t1 : tolist b w1 c with
    | error e => rw [t1] at h1; cases h1
    | ok p1 =>
    cases t2 : tolist b w2 c with
    | error e => rw [t2] at h2; cases h2
    | ok p2 =>
    rw [t1] at h1; rw [t2] at h2
    cases h1; cases h2
    obtain ⟨l1, w5, x1, d1⟩ := tolist_data hi1.winv hc1 (tolist_avail t1)
    obtain ⟨l2, w6, x2, d2⟩ := tolist_data hi2.winv hc2 (tolist_avail t2)
    rw [t1] at x1; rw [t2] at x2
    cases x1; cases x2
    rw [hg, d1] at d2
    cases d2; rfl
  refine ⟨w0, w1, w2, s0, rfl, s1, s2, ?_, key⟩
  have c1 : a < w1.g.length := by rw [r1.g]; exact ha
  have c2 : a < w2.g.length := by rw [r2.g]; exact ha
  obtain ⟨l1, w3, x1, _⟩ := tolist_data hi1.winv c1 (by rw [r1.g]; exact r1.avail)
  obtain ⟨l2, w4, x2, _⟩ := tolist_data hi2.winv c2 (by rw [r2.g]; exact r2.avail)
  have y1 : step b w1 (.tolist a) = .ok (.list l1, w3) := by rw [step_tolist c1, x1]; rfl
  have y2 : step b w2 (.tolist a) = .ok (.list l2, w4) := by rw [step_tolist c2, x2]; rfl
  have := key a _ _ _ _ y1 y2
  cases this
  exact ⟨l1, w3, w4, y1, y2⟩

/-! ### concrete cases and counterexamples -/

/-- Key, pattern of function reads and code of the kernel that computes array `a` itself, after a program (Python backend). -/
def kernelOf (cs : List (Call Int)) (a : Nat) : Option (Key × List (Nat × Option (List Int × DType)) × Except Err (Kernel × Nat)) :=
  match Algo.convert (Demo.after cs).g a with
  | .ok (_, t) => match t a with
    | some F => match Sched.schedule false F with
      | .ok sch => match cacheKey (Demo.after cs).g t (a + 2) F sch with
        | .ok k => some (k, funcSig t F.expr, freshCode (Demo.after cs).g t F sch)
        | .error _ => none
      | .error _ => none
    | none => none
  | .error _ => none

/-- `v + v.sum()` for two different vectors `v`. -/
def twice : List (Call Int) := [.array (.node [.leaf 1, .leaf 2, .leaf 3]), .array (.node [.leaf 7, .leaf 8, .leaf 9]), .sum 0 .none false, .sum 1 .none false, .bin .add 0 2, .bin .add 1 3]

example : Demo.runs twice = true := by decide +kernel
example : (kernelOf twice 5).map (·.1) = (kernelOf twice 7).map (·.1) := by decide +kernel
example : (kernelOf twice 5).map (·.1.expr.handled) = some true := by decide +kernel
example : (kernelOf twice 5).map (·.2.1) = some [(0, some ([], DType.int64))] := by decide +kernel
example : (kernelOf twice 7).map (·.2.1) = some [(0, some ([], DType.int64))] := by decide +kernel

/-- Three launches with plain keys, two of them with the same key. -/
def plains : List (Call Int) := [.array Demo.m23, .array Demo.m23, .un .neg 0, .un .neg 1, .T 0, .bin .mul 0 1, .materialize 2, .materialize 3, .materialize 5]

example : Demo.runs plains = true ∧ (Demo.after plains).log.length = 3 ∧ (Demo.after plains).cache.length = 2 ∧
    ∀ p ∈ (Demo.after plains).log ++ launchLog false (Demo.after plains).g 2, p.1.expr.plain = true := by decide +kernel

/-- The list that `a.materialize(); a.tolist()` returns after a program. -/
def matList (cs : List (Call Int)) (a : Nat) : Option (List Int × List Int) := match step Demo.py (Demo.after cs) (.materialize a) with
  | .ok (_, w) => match step Demo.py w (.tolist a) with
    | .ok (.list l, _) => some (shapeOf l, leaves l)
    | _ => none
  | .error _ => none

example : Demo.runs twice = true ∧ matList (twice ++ [.materialize 5]) 7 = some ([3], [31, 32, 33]) ∧ matList (twice ++ [.materialize 5, .reset]) 7 = some ([3], [31, 32, 33]) := by decide +kernel

theorem matList_some {cs : List (Call Int)} {a : Nat} {r : List Int × List Int} (h : matList cs a = some r) :
    ∃ w1 l w2, step Demo.py (Demo.after cs) (.materialize a) = .ok (.unit, w1) ∧ step Demo.py w1 (.tolist a) = .ok (.list l, w2) ∧ shapeOf l = r.1 ∧ leaves l = r.2 := by
  unfold matList at h
  split at h
  · rename_i o w1 e1
    split at h
    · rename_i l w2 e2
      cases h
      refine ⟨w1, l, w2, ?_, e2, rfl, rfl⟩
      rw [e1]
      unfold step at e1
      split at e1
      · simp only [exec1] at e1
        cases hm : materialize Demo.py (Demo.after cs) a with
        | error e => rw [hm] at e1; cases e1
        | ok p => rw [hm] at e1; cases e1; rfl
      · cases e1
    · cases h
  · cases h

/-- `v.pad(0, 1, 1)`, materialized; `v.pad(0, 2, 0)`. -/
def padPad : List (Call Int) := [.array (.node [.leaf 1, .leaf 2, .leaf 3]), .pad 0 0 1 1, .pad 0 0 2 0, .materialize 1]

/-- C25 is false in the code: after `v.pad(0, 1, 1)` has been materialized, materializing `v.pad(0, 2, 0)` reuses its kernel, and `[0, 1, 2, 3, 0]` is read instead of
`[0, 0, 1, 2, 3]`; with an empty cache the right list is read. -/
theorem C25_counterexample_pad : ∃ (w w1 w2 : World Int) (a : Nat) (l : Nested Int), Reachable Demo.py w ∧ (value Demo.py w a).flatten = [0, 0, 1, 2, 3] ∧
    step Demo.py w (.materialize a) = .ok (.unit, w1) ∧ step Demo.py w1 (.tolist a) = .ok (.list l, w2) ∧ leaves l = [0, 1, 2, 3, 0] ∧
    matList (padPad ++ [.reset]) a = some ([5], [0, 0, 1, 2, 3]) := by
  obtain ⟨w1, l, w2, h1, h2, _, h4⟩ := matList_some (cs := padPad) (a := 2) (r := ([5], [0, 1, 2, 3, 0])) (by decide +kernel)
  exact ⟨_, w1, w2, 2, l, Demo.reach (cs := padPad) (by decide +kernel), by decide +kernel, h1, h2, h4, by decide +kernel⟩

/-- `s = v.sum()` and `t = v.sum()`, `s + t` materialized; `s + s`. -/
def sumSum : List (Call Int) := [.array (.node [.leaf 1, .leaf 2, .leaf 3]), .sum 0 .none false, .sum 0 .none false, .bin .add 1 2, .bin .add 1 1, .materialize 3]

/-- C25 is false in the code: with `s = v.sum()`, `t = v.sum()`, after `s + t` has been materialized `(s + s).materialize()` raises a TypeError (the cached kernel takes one more
argument); with an empty cache it returns. -/
theorem C25_counterexample_sharing : ∃ (w : World Int) (a : Nat), Reachable Demo.py w ∧ a < w.g.length ∧ step Demo.py w (.materialize a) = .error .typeError ∧
    matList (sumSum ++ [.reset]) a = some ([], [12]) := by
  refine ⟨_, 4, Demo.reach (cs := sumSum) (by decide +kernel), by decide +kernel, ?_, by decide +kernel⟩
  have h : (match step Demo.py (Demo.after sumSum) (.materialize 4) with | .error .typeError => true | _ => false) = true := by decide +kernel
  revert h
  split
  · rename_i e; intro _; exact e
  · intro h; cases h

/-- `(x[:, 0:2] + x[:, 0:2])` for `x = -c.broadcast_to((2, 3))`, materialized, and for `x = -c.broadcast_to((2, 5))`. -/
def wide : List (Call Int) :=
  [.array (.node [.node [.leaf 1], .node [.leaf 2]]),
   .broadcastTo 0 [2, 3], .un .neg 1, .getitem 2 [.slice none none none, .slice (some 0) (some 2) none], .getitem 2 [.slice none none none, .slice (some 0) (some 2) none], .bin .add 3 4,
   .broadcastTo 0 [2, 5], .un .neg 6, .getitem 7 [.slice none none none, .slice (some 0) (some 2) none], .getitem 7 [.slice none none none, .slice (some 0) (some 2) none], .bin .add 8 9,
   .materialize 5]

/-- C25 is false in the code: the kernel that reads the result of shape (2, 3) of another kernel is reused for a result of shape (2, 5), with the wrong strides. -/
theorem C25_counterexample_shape : ∃ (w w1 w2 : World Int) (a : Nat) (l : Nested Int), Reachable Demo.py w ∧ (value Demo.py w a).flatten = [-2, -2, -4, -4] ∧
    step Demo.py w (.materialize a) = .ok (.unit, w1) ∧ step Demo.py w1 (.tolist a) = .ok (.list l, w2) ∧ leaves l = [-2, -2, -2, -2] ∧
    matList (wide ++ [.reset]) a = some ([2, 2], [-2, -2, -4, -4]) := by
  obtain ⟨w1, l, w2, h1, h2, _, h4⟩ := matList_some (cs := wide) (a := 10) (r := ([2, 2], [-2, -2, -2, -2])) (by decide +kernel)
  exact ⟨_, w1, w2, 10, l, Demo.reach (cs := wide) (by decide +kernel), by decide +kernel, h1, h2, h4, by decide +kernel⟩

end Whale.Props
