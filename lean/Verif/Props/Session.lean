import Verif.Proofs.DemoDev
/-
Properties of whole sessions: C26 materialize is idempotent, C27 arrays are immutable values, C41 device memory discipline, C44 kernel cache accounting.
-/
namespace Whale.Props
open Whale Hist Mat
variable {V : Type}

/-- Reading an array with available data gives the data of its buffer, through its layout. -/
theorem tolist_data {b : Backend V} {w : World V} (h : WInv b w) {a : Nat} (ha : a < w.g.length) (hav : Avail b w (base w.g a)) :
    ∃ l w', tolist b w a = .ok (l, w') ∧ ND.toNdlist (den b.A w.g (base w.g a)).flatten (w.g.shape a) (w.g.strides a) (w.g.offset a) = .ok l := by
  obtain ⟨c1, v1, f1, j1, d1, _⟩ := ensureCpu_ok h (x := base w.g a) (Nat.lt_of_le_of_lt (base_le h.wf ha) ha) hav
  obtain ⟨l, _, _, t1, _⟩ := tolist_ok h ha hav
  refine ⟨l, _, t1, ?_⟩
  unfold tolist at t1
  simp only [f1, bind, Except.bind, d1] at t1
  split at t1
  · cases t1
  · rename_i hl; cases t1; exact hl

theorem step_tolist {b : Backend V} {w : World V} {a : Nat} (ha : a < w.g.length) : step b w (.tolist a) = (tolist b w a).map fun p => (.list p.1, p.2) := by
  rw [step_eq (by simpa [Call.arrays] using ha)]; rfl

/-! ### C26 -/

/-- C26: once `a.tolist()` has returned `l` it returns `l` ever after, whatever is called in between (materialize of any arrays in any order included). -/
theorem C26_stable {b : Backend V} (hb : Faithful b) {w : World V} (hr : Reachable b w) {a : Nat} {l : Nested V} {w1 : World V}
    (h : step b w (.tolist a) = .ok (.list l, w1)) {w2 : World V} (hrun : Runs b w1 w2) : ∃ w3, step b w2 (.tolist a) = .ok (.list l, w3) := by
  have hi := hr.inv hb
  have ha : a < w.g.length := by
    unfold step at h
    split at h
    · rename_i hin; exact hin a (by simp [Call.arrays])
    · cases h
  have hr1 : Runs b w w1 := .call (c := .tolist a) .refl (.inr trivial) (by unfold next; rw [h])
  have hr2 : Runs b w w2 := by
    induction hrun with
    | refl => exact hr1
    | call _ hl hn ih => exact .call ih hl hn
    | stopped _ hy ha hs ih => exact .stopped ih hy ha hs
  obtain ⟨hi2, hl⟩ := hr2.later hb hi
  rw [step_tolist ha] at h
  obtain ⟨p, hp, e⟩ : ∃ p, tolist b w a = .ok p ∧ p.1 = l := by
    cases ht : tolist b w a with
    | error e => rw [ht] at h; cases h
    | ok p => rw [ht] at h; exact ⟨p, rfl, by cases h; rfl⟩
  have hav := tolist_avail hp
  have hbl := Nat.lt_of_le_of_lt (base_le hi.winv.wf ha) ha
  obtain ⟨l1, w', t1, d1⟩ := tolist_data hi.winv ha hav
  rw [hp] at t1; cases t1; cases e
  have ha2 : a < w2.g.length := Nat.lt_of_lt_of_le ha hl.ext.length
  have hbe := base_ext hl.ext hi.winv.wf ha
  obtain ⟨l2, w3, t2, d2⟩ := tolist_data hi2.winv ha2 (by rw [hbe]; exact hl.avail hbl hav)
  rw [hbe, den_ext b.A hl.ext hi2.winv.wf hbl, hl.ext.shape ha, hl.ext.strides ha, hl.ext.offset ha, d1] at d2
  cases d2
  exact ⟨w3, by rw [step_tolist ha2, t2]; rfl⟩

/-- C26: once `a.materialize()` has returned, `a.tolist()` returns ever after. -/
theorem C26_materialized {b : Backend V} (hb : Faithful b) {w : World V} (hr : Reachable b w) {a : Nat} (ha : a < w.g.length) (hargs : ArgsOK b w (.materialize a)) {w1 : World V}
    (h : step b w (.materialize a) = .ok (.unit, w1)) {w2 : World V} (hrun : Runs b w1 w2) : ∃ l w3, step b w2 (.tolist a) = .ok (.list l, w3) := by
  have hi := hr.inv hb
  have hr1 := hr.call (.inr hargs) (show next b w (.materialize a) = some w1 by unfold next; rw [h])
  have h1 := hr1.inv hb
  have hl := (next_ok hb hi (.inr hargs) (show next b w (.materialize a) = some w1 by unfold next; rw [h])).2
  obtain ⟨h2, hl2⟩ := hrun.later hb h1
  have ha1 : a < w1.g.length := Nat.lt_of_lt_of_le ha hl.ext.length
  have ha2 : a < w2.g.length := Nat.lt_of_lt_of_le ha1 hl2.ext.length
  have hav : Avail b w1 (base w1.g a) := by
    have hm : materialize b w a = .ok w1 := by
      rw [step_eq (by simpa [Call.arrays] using ha)] at h
      simp only [exec1] at h
      cases hm : materialize b w a with
      | error e => rw [hm] at h; cases h
      | ok p => rw [hm] at h; cases h; rfl
    obtain ⟨w', e, r⟩ := materialize_ok hb hi.winv ha hargs.1 hargs.2.1 (fun hg => kernelSizes_of hi.winv.wf ha hargs.1 (hargs.2.2 hg))
    rw [hm] at e; cases e
    rw [r.g]; exact r.avail
  have hbl := Nat.lt_of_le_of_lt (base_le h1.winv.wf ha1) ha1
  obtain ⟨l2, w3, t2, _⟩ := tolist_data h2.winv ha2 (by rw [base_ext hl2.ext h1.winv.wf ha1]; exact hl2.avail hbl hav)
  exact ⟨l2, w3, by rw [step_tolist ha2, t2]; rfl⟩

/-- C26: materializing a constant changes nothing at all (no kernel, no copy, no cache entry). -/
theorem C26_constant {b : Backend V} {w : World V} {a : Nat} (ha : a < w.g.length) (hc : w.g.ctx a = .const) : step b w (.materialize a) = .ok (.unit, w) := by
  rw [step_eq (by simpa [Call.arrays] using ha)]
  have : (w.g.ctx a).op.isConst = true := by rw [hc]; rfl
  simp only [exec1, materialize, materializeF, this, if_true, pure, Except.pure, Except.map]

/-- C26: materializing a view does exactly what materializing its base does (same kernels, same resulting state, same exceptions). -/
theorem C26_view {b : Backend V} (hb : Faithful b) {w : World V} (hr : Reachable b w) {a : Nat} (ha : a < w.g.length) :
    step b w (.materialize a) = step b w (.materialize (base w.g a)) := by
  have hw := (hr.inv hb).winv.wf
  have hbl := Nat.lt_of_le_of_lt (base_le hw ha) ha
  rw [step_eq (by simpa [Call.arrays] using ha), step_eq (by simpa [Call.arrays] using hbl)]
  simp only [exec1, materialize]
  obtain ⟨f', e⟩ := materializeF_base (b := b) hw ha (a + 1) (by omega)
  rw [e]
  congr 1
  unfold materializeF
  rw [base_base hw ha]
  rfl

/-- Demonstration: 3 is a transposed view of the computed array 2; both are materialized, in either order, twice. -/
def sdemo : List (Call Int) := [.array Demo.m23, .un .neg 0, .bin .add 0 1, .T 2, .materialize 3, .materialize 1, .materialize 2]

example : Demo.runs sdemo = true ∧ base (Demo.after sdemo).g 3 = 2 ∧ Demo.listOf sdemo (.tolist 3) = some ([3, 2], [0, 0, 0, 0, 0, 0]) ∧
    Demo.listOf sdemo (.tolist 1) = some ([2, 3], [-1, -2, -3, -4, -5, -6]) ∧ Demo.runsOn Demo.cuda sdemo = true := by decide +kernel

/-! ### C27 -/

/-- C27: whatever is called, every existing array keeps its shape, strides, offset, dtype, constant data, the operation and operands it was built from, and its value. -/
theorem C27_immutable {b : Backend V} (hb : Faithful b) {w : World V} (hr : Reachable b w) {w' : World V} (hrun : Runs b w w') {a : Nat} (ha : a < w.g.length) :
    a < w'.g.length ∧ w'.g.nd a = w.g.nd a ∧ base w'.g a = base w.g a ∧ value b w' a = value b w a := by
  have hi := hr.inv hb
  obtain ⟨hi', hl⟩ := hrun.later hb hi
  exact ⟨Nat.lt_of_lt_of_le ha hl.ext.length, hl.ext.nd ha, base_ext hl.ext hi.winv.wf ha, den_ext b.A hl.ext hi'.winv.wf ha⟩

/-- C27: every buffer content that exists, on the CPU or on the device, is the value of its array. -/
theorem C27_buffers {b : Backend V} (hb : Faithful b) {w : World V} (hr : Reachable b w) {a : Nat} (ha : a < w.g.length) :
    (∀ l, cpuBuf w a = some l → l = (value b w a).flatten) ∧ ∀ l, w.dev a = some l → l = (value b w a).flatten := by
  have hi := (hr.inv hb).winv
  exact ⟨fun l hl => cpuBuf_ok hi ha hl, fun l hl => (hi.dev a l hl).2⟩

/-- A history with computation, views, gradients and reads. -/
def longDemo : List (Call Int) :=
  [.array Demo.m23, .T 0, .sum 1 (.int 0) true, .bin .mul 1 2, .getitem 4 [.int 1, .slice none none (some 2)], .materialize 5, .tolist 5, .backward 5, .materialize 4, .materialize 3, .tolist 2]

example : Demo.runs longDemo = true ∧ (Demo.after longDemo).g.length = 17 := by decide +kernel

/-! ### C41 -/

/-- C41: at every point of the device trace: memory is allocated only if the array has none yet (so at most once) and with positive size, data is copied to and kernels are
launched on allocated memory only, every input of a launch has been initialised (copied in or computed) before, the output is not an input, and only computed results are
copied back. -/
theorem C41_discipline {b : Backend V} (hb : Faithful b) {w : World V} (hr : Reachable b w) {pre post : List DevEvent} {e : DevEvent} (h : w.ev = pre ++ e :: post) :
    EventOK pre e := by
  have hok := (hr.inv hb).winv.ev.ok
  rw [h] at hok
  clear h
  induction post using List.reverseRecOn with
  | nil =>
    generalize hl : pre ++ [e] = l at hok
    cases hok with
    | nil => simp at hl
    | snoc h1 h2 =>
      obtain ⟨rfl, h3⟩ := List.append_inj' hl rfl
      cases h3; exact h2
  | append_singleton post x ih =>
    generalize hl : pre ++ e :: (post ++ [x]) = l at hok
    cases hok with
    | nil => simp at hl
    | snoc h1 h2 =>
      rename_i ev' e'
      have : (pre ++ e :: post) ++ [x] = ev' ++ [e'] := by simpa using hl
      obtain ⟨rfl, _⟩ := List.append_inj' this rfl
      exact ih h1

/-- C41: device memory that exists holds the value of its array, and an array whose buffer was computed on (or copied to) the device can be read back from then on and gives
its value. -/
theorem C41_contents {b : Backend V} (hb : Faithful b) (hg : b.isGpu = true) {w : World V} (hr : Reachable b w) {i : Nat} (hal : Allocated w.ev i) :
    w.dev i = some (value b w i).flatten ∧ ∀ a < w.g.length, base w.g a = i → NoOffsetReshape w.g a → Reads b w a (value b w a) := by
  have hi := hr.inv hb
  have hs := (hi.winv.ev.dev i).2 hal
  obtain ⟨l, hl⟩ := Option.isSome_iff_exists.1 hs
  refine ⟨by rw [hl, (hi.winv.dev i l hl).2]; rfl, fun a ha hb' hno => readable hb hi ha (.inr ⟨hg, by rw [hb']; exact hs⟩) hno⟩

/-- The device trace of a demonstration: the second launch reuses the memory of both operands. -/
example : (Demo.afterOn Demo.cuda [.array Demo.m23, .sum 0 (.int 1) true, .bin .mul 0 1, .materialize 3, .tolist 3]).ev =
    [.alloc 1 2, .alloc 0 6, .copyIn 0, .launch 1 [0], .alloc 3 6, .copyIn 0, .launch 3 [0, 1], .copyOut 3] := by decide +kernel

/-! ### C44 -/

/-- C44: after any history (`w.log` lists the key of every kernel launch since the last `reset`, in order, `w.tick` counts all launches and `w.epoch` those before the last `reset`): the cache holds exactly one kernel for every
key launched since and no other, the compilation history is the list of these kernels in order of compilation, and the hit count of a key is the number of its launches
after the first. -/
theorem C44_accounting {b : Backend V} (hb : Faithful b) {w : World V} (hr : Reachable b w) :
    w.tick = w.epoch + w.log.length ∧ (w.cache.map (·.1)).Nodup ∧ (∀ k, k ∈ w.cache.map (·.1) ↔ k ∈ w.log.map (·.1)) ∧ w.hist = w.cache.map (·.2) ∧
      ∀ k ∈ w.log.map (·.1), w.hits k + 1 = (w.log.map (·.1)).count k := by
  have h := (hr.inv hb).acc trivial
  exact ⟨by rw [h.tick, List.length_map], h.nodup, h.keys, h.hist, h.hits⟩

/-- Three launches of two kernels. -/
example : let w := Demo.after [.array Demo.m23, .un .neg 0, .materialize 1, .array (.node [.node [.leaf 7, .leaf 8, .leaf 9], .node [.leaf 4, .leaf 5, .leaf 6]]), .un .neg 2, .materialize 3,
      .T 0, .un .neg 4, .materialize 5]
    w.tick = 3 ∧ w.cache.length = 2 ∧ w.hist.length = 2 ∧ (w.log.map fun p => w.hits p.1) = [1, 1, 0] := by decide +kernel

end Whale.Props
